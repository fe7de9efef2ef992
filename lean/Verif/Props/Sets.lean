import Verif.Lemmas.Frame
import Verif.Lemmas.Sample

/-! # C22–C24 – set keys -/

namespace Verif.Props

open Verif Spec

variable {env env' : Env} {st st' : State} {a : DB} {objs objs' : List Resp} {k x : Bytes}

theorem finset_enumerates (s : Finset Bytes) : ∃ l, Enumerates l (· ∈ s) ∧ l.length = s.card :=
  ⟨s.toList, ⟨s.nodup_toList, fun _ => Finset.mem_toList⟩, by simp⟩

/-! ## C22

One thing a client may expect is false: the empty text can be a member, but SISMEMBER refuses to look for it. -/

/-- C22 (SADD): afterwards the members are the old ones and the given ones; the reply is the number of different given members that were
not members before. -/
theorem C22_sadd {ms : List Bytes} (h : Abs st a) (ho : env.ord.Fair) (hk : k ≠ []) (hne : ms ≠ []) (hr : Request objs b!"sadd" (k :: ms)) :
    ∃ s new, Answers env st objs (a.setSet k s) (.int (List.length new)) ∧ (∀ x, x ∈ s ↔ x ∈ a.setAt k ∨ x ∈ ms) ∧
      Enumerates new (fun x => x ∈ ms ∧ x ∉ a.setAt k) := by
  obtain ⟨out, hs, hob⟩ := handle_refines h ho (c := .sadd k ms) ⟨hne, hr⟩
  simp only [Step] at hs
  rw [if_neg hk] at hs; subst hs
  obtain ⟨new, hn, hc⟩ := finset_enumerates (ms.toFinset \ a.setAt k)
  refine ⟨_, new, by rw [hc]; exact hob, by simp, hn.1, fun x => ?_⟩
  rw [hn.2 x]; simp

/-- C22 (SREM): exactly the given members are gone; the reply is the number of different given members that were members before. -/
theorem C22_srem {ms : List Bytes} (h : Abs st a) (ho : env.ord.Fair) (hk : k ≠ []) (hne : ms ≠ []) (hr : Request objs b!"srem" (k :: ms)) :
    ∃ s old, Answers env st objs (a.setSet k s) (.int (List.length old)) ∧ (∀ x, x ∈ s ↔ x ∈ a.setAt k ∧ x ∉ ms) ∧
      Enumerates old (fun x => x ∈ ms ∧ x ∈ a.setAt k) := by
  obtain ⟨out, hs, hob⟩ := handle_refines h ho (c := .srem k ms) ⟨hne, hr⟩
  simp only [Step] at hs
  rw [if_neg hk] at hs; subst hs
  obtain ⟨old, hn, hc⟩ := finset_enumerates (ms.toFinset ∩ a.setAt k)
  refine ⟨_, old, by rw [hc]; exact hob, by simp, hn.1, fun x => ?_⟩
  rw [hn.2 x]; simp

/-- C22 (SCARD): the number of members, 0 for a missing key. -/
theorem C22_scard (h : Abs st a) (ho : env.ord.Fair) (hr : Request objs b!"scard" [k]) :
    ∃ ms, Enumerates ms (· ∈ a.setAt k) ∧ Answers env st objs a (.int (List.length ms)) := by
  obtain ⟨out, hs, hob⟩ := handle_refines h ho (c := .scard k) hr
  simp only [Step] at hs; subst hs
  obtain ⟨ms, hn, hc⟩ := finset_enumerates (a.setAt k)
  exact ⟨ms, hn, by rw [hc]; exact hob⟩

/-- C22 (SMEMBERS): each member once, whatever the iteration order; a null array for a missing key. -/
theorem C22_smembers (h : Abs st a) (ho : env.ord.Fair) (hr : Request objs b!"smembers" [k]) :
    (∀ s, a.sets k = some s → ∃ ms, Enumerates ms (· ∈ s) ∧ Answers env st objs a (.array (ms.map .bulk))) ∧
    (a.sets k = none → Answers env st objs a .nullArray) := by
  obtain ⟨out, hs, hob⟩ := handle_refines h ho (c := .smembers k) hr
  simp only [Step] at hs
  refine ⟨fun s e => ?_, fun e => ?_⟩
  · rw [e] at hs; obtain ⟨ms, hm, rfl⟩ := hs; exact ⟨ms, hm, hob⟩
  · rw [e] at hs; simp only at hs; subst hs; exact hob

/-- C22 (SISMEMBER, partial: the element is not the empty text): 1 for members, 0 otherwise. -/
theorem C22_sismember_partial (h : Abs st a) (ho : env.ord.Fair) (hx : x ≠ []) (hr : Request objs b!"sismember" [k, x]) :
    (x ∈ a.setAt k → Answers env st objs a (.int 1)) ∧ (x ∉ a.setAt k → Answers env st objs a (.int 0)) := by
  obtain ⟨out, hs, hob⟩ := handle_refines h ho (c := .sismember k x) hr
  simp only [Step] at hs
  unfold DB.setAt
  cases e : a.sets k with
  | none => rw [e] at hs; simp only at hs; subst hs; exact ⟨by simp, fun _ => hob⟩
  | some s =>
    rw [e] at hs
    simp only at hs
    rw [if_neg hx] at hs; subst hs
    refine ⟨fun hm => ?_, fun hm => ?_⟩
    · rw [if_pos (by simpa using hm)] at hob; exact hob
    · rw [if_neg (by simpa using hm)] at hob; exact hob

/-- C22 (the empty text): on an existing set SISMEMBER of the empty text always replies an error. -/
theorem C22_empty_member {s : Finset Bytes} (h : Abs st a) (ho : env.ord.Fair) (hk : a.sets k = some s)
    (hr : Request objs b!"sismember" [k, []]) : Answers env st objs a (.error b!"ERR invalid argument") := by
  obtain ⟨out, hs, hob⟩ := handle_refines h ho (c := .sismember k []) hr
  simp only [Step, hk] at hs
  rw [if_pos trivial] at hs; subst hs
  obtain ⟨r, her, hb⟩ := hob
  cases her; exact hb

/-- C22 (counterexample): SADD s "" is accepted, and the SISMEMBER s "" that follows is answered by an error. -/
theorem C22_false : ∃ st' n, serve State.empty [(env0, req [b!"SADD", b!"s", b!""]), (env0, req [b!"SISMEMBER", b!"s", b!""])] =
    .ok (st', [.int n, .error b!"ERR invalid argument"]) := by
  obtain ⟨s, new, ⟨st1, e1, a1⟩, -, -⟩ := C22_sadd abs_empty env0_fair (objs := req [b!"SADD", b!"s", b!""]) (k := b!"s")
    (ms := [b!""]) (by decide) (by simp) (request_req _)
  obtain ⟨st2, e2, -⟩ := C22_empty_member (k := b!"s") (s := s) (objs := req [b!"SISMEMBER", b!"s", b!""]) a1 env0_fair (by simp [DB.setSet])
    (request_req _)
  exact ⟨st2, _, by simp [serve, e1, e2]; rfl⟩

/-- The hypotheses can be met: SADD with a repeated and an already present member. -/
example : ∃ st, Reachable st ∧ Abs st sampleDB ∧ Request (req [b!"sadd", b!"s", b!"x", b!"q", b!"q"]) b!"sadd" (b!"s" :: [b!"x", b!"q", b!"q"]) ∧
    Request (req [b!"srem", b!"s", b!"x", b!"q", b!"x"]) b!"srem" (b!"s" :: [b!"x", b!"q", b!"x"]) ∧ b!"x" ∈ sampleDB.setAt b!"s" ∧
    b!"q" ∉ sampleDB.setAt b!"s" := by
  obtain ⟨st, hr, ha⟩ := sample_reachable
  exact ⟨st, hr, ha, request_req _, request_req _, by decide, by decide⟩

/-! ## C23 -/

/-- A reply listing exactly the things with property `P`, each once, as an array of bulk strings, or a null array if there are none. -/
def Lists (P : Bytes → Prop) (r : Resp) : Prop :=
  ((¬ ∃ x, P x) ∧ r = .nullArray) ∨ ∃ ms, ms ≠ [] ∧ Enumerates ms P ∧ r = .array (ms.map .bulk)

theorem lists_of {P : Bytes → Prop} {ms : List Bytes} (h : Enumerates ms P) : Lists P (bulksOrNull ms) := by
  unfold bulksOrNull
  by_cases e : ms = []
  · subst e
    exact .inl ⟨by rintro ⟨x, hx⟩; simpa using (h.2 x).2 hx, by simp⟩
  · exact .inr ⟨ms, e, h, by simp [e]⟩

/-- C23: SDIFF, SINTER and SUNION reply exactly the difference of the first and the other named sets, the intersection and the union, for any number of
operands, with repetitions and missing keys, and for all iteration orders; no operand is modified. -/
theorem C23_algebra {ks : List Bytes} (h : Abs st a) (ho : env.ord.Fair) :
    (Request objs b!"sdiff" (k :: ks) → ∃ r, Answers env st objs a r ∧ Lists (fun x => x ∈ a.setAt k ∧ ∀ k' ∈ ks, x ∉ a.setAt k') r) ∧
    (Request objs b!"sinter" (k :: ks) → ∃ r, Answers env st objs a r ∧ Lists (fun x => x ∈ a.setAt k ∧ ∀ k' ∈ ks, x ∈ a.setAt k') r) ∧
    (Request objs b!"sunion" (k :: ks) → ∃ r, Answers env st objs a r ∧ Lists (fun x => x ∈ a.setAt k ∨ ∃ k' ∈ ks, x ∈ a.setAt k') r) := by
  refine ⟨fun hr => ?_, fun hr => ?_, fun hr => ?_⟩
  · obtain ⟨out, hs, hob⟩ := handle_refines h ho (c := .sdiff (k :: ks)) ⟨by simp, hr⟩
    obtain ⟨ms, hm, rfl⟩ := hs
    exact ⟨_, hob, lists_of hm⟩
  · obtain ⟨out, hs, hob⟩ := handle_refines h ho (c := .sinter (k :: ks)) ⟨by simp, hr⟩
    obtain ⟨ms, hm, rfl⟩ := hs
    exact ⟨_, hob, lists_of ⟨hm.1, fun x => by rw [hm.2 x]; simp⟩⟩
  · obtain ⟨out, hs, hob⟩ := handle_refines h ho (c := .sunion (k :: ks)) ⟨by simp, hr⟩
    obtain ⟨ms, hm, rfl⟩ := hs
    exact ⟨_, hob, lists_of ⟨hm.1, fun x => by rw [hm.2 x]; simp⟩⟩

/-- The hypotheses can be met: s minus u minus a missing key; the difference is not empty. -/
example : ∃ st, Reachable st ∧ Abs st sampleDB ∧ Request (req [b!"SDIFF", b!"s", b!"u", b!"nokey"]) b!"sdiff" (b!"s" :: [b!"u", b!"nokey"]) ∧
    (b!"x" ∈ sampleDB.setAt b!"s" ∧ ∀ k' ∈ [b!"u", b!"nokey"], b!"x" ∉ sampleDB.setAt k') ∧ b!"y" ∈ sampleDB.setAt b!"u" := by
  obtain ⟨st, hr, ha⟩ := sample_reachable
  exact ⟨st, hr, ha, request_req _, by decide, by decide⟩

/-! ## C24

As documented the property is false for an existing empty set and no count: the server dies. -/

/-- C24 (with count): SPOP and SRANDMEMBER with a count n reply min(|n|, card) different members, as a null array if that is none; SPOP removes
exactly those, SRANDMEMBER nothing. The statement holds for every choice the runtime makes. -/
theorem C24_count {l : Bytes} {n : Int} {s : Finset Bytes} (h : Abs st a) (ho : env.ord.Fair) (hl : IsInt l n) (hk : a.sets k = some s) :
    (Request objs b!"spop" [k, l] → ∃ ms : List Bytes, ms.Nodup ∧ (∀ x ∈ ms, x ∈ s) ∧ ms.length = min n.natAbs s.card ∧
      ∃ s', (∀ x, x ∈ s' ↔ x ∈ s ∧ x ∉ ms) ∧
        Answers env st objs (a.setSet k s') (if ms = [] then .nullArray else .array (ms.map .bulk))) ∧
    (Request objs b!"srandmember" [k, l] → ∃ ms : List Bytes, ms.Nodup ∧ (∀ x ∈ ms, x ∈ s) ∧ ms.length = min n.natAbs s.card ∧
      Answers env st objs a (if ms = [] then .nullArray else .array (ms.map .bulk))) := by
  refine ⟨fun hr => ?_, fun hr => ?_⟩
  · obtain ⟨out, hs, hob⟩ := handle_refines h ho (c := .spop k (some n)) ⟨l, hr, hl⟩
    simp only [Step, hk] at hs
    obtain ⟨ms, h1, h2, h3, rfl⟩ := hs
    exact ⟨ms, h1, fun x hx => h2 (List.mem_toFinset.2 hx), h3, s \ ms.toFinset, by simp, hob⟩
  · obtain ⟨out, hs, hob⟩ := handle_refines h ho (c := .srandmember k (some n)) ⟨l, hr, hl⟩
    simp only [Step, hk] at hs
    obtain ⟨ms, h1, h2, h3, rfl⟩ := hs
    exact ⟨ms, h1, fun x hx => h2 (List.mem_toFinset.2 hx), h3, hob⟩

/-- C24 (without count, partial: the set is not empty): one member; SPOP removes exactly that one, SRANDMEMBER nothing. -/
theorem C24_single_partial {s : Finset Bytes} (h : Abs st a) (ho : env.ord.Fair) (hk : a.sets k = some s) (hne : s ≠ ∅) :
    (Request objs b!"spop" [k] → ∃ m ∈ s, ∃ s', (∀ x, x ∈ s' ↔ x ∈ s ∧ x ≠ m) ∧ Answers env st objs (a.setSet k s') (.bulk m)) ∧
    (Request objs b!"srandmember" [k] → ∃ m ∈ s, Answers env st objs a (.bulk m)) := by
  have hc : 0 < s.card := Finset.card_pos.2 (Finset.nonempty_iff_ne_empty.2 hne)
  refine ⟨fun hr => ?_, fun hr => ?_⟩
  · obtain ⟨out, hs, hob⟩ := handle_refines h ho (c := .spop k none) hr
    simp only [Step, hk] at hs
    obtain ⟨ms, h1, h2, h3, hs⟩ := hs
    simp only [Option.getD_none, Int.natAbs_one] at h3
    match ms, h3 with
    | [], h3 => simp at h3; omega
    | [m], _ =>
      simp only at hs; subst hs
      exact ⟨m, h2 (by simp), s \ [m].toFinset, by simp, hob⟩
    | _ :: _ :: _, h3 => simp at h3; omega
  · obtain ⟨out, hs, hob⟩ := handle_refines h ho (c := .srandmember k none) hr
    simp only [Step, hk] at hs
    obtain ⟨ms, h1, h2, h3, hs⟩ := hs
    match ms, h3 with
    | [], h3 => simp at h3; omega
    | m :: ms, _ =>
      simp only at hs; subst hs
      exact ⟨m, h2 (by simp), hob⟩

/-- C24 (missing key): a null reply, nothing changes. -/
theorem C24_missing (h : Abs st a) (ho : env.ord.Fair) (hk : a.sets k = none) :
    (Request objs b!"spop" [k] ∨ Request objs b!"srandmember" [k] → Answers env st objs a .nullBulk) ∧
    (∀ l n, IsInt l n → Request objs b!"spop" [k, l] ∨ Request objs b!"srandmember" [k, l] → Answers env st objs a .nullArray) := by
  refine ⟨?_, fun l n hl => ?_⟩
  · rintro (hr | hr)
    · obtain ⟨out, hs, hob⟩ := handle_refines h ho (c := .spop k none) hr
      simp only [Step, hk] at hs; subst hs; exact hob
    · obtain ⟨out, hs, hob⟩ := handle_refines h ho (c := .srandmember k none) hr
      simp only [Step, hk] at hs; subst hs; exact hob
  · rintro (hr | hr)
    · obtain ⟨out, hs, hob⟩ := handle_refines h ho (c := .spop k (some n)) ⟨l, hr, hl⟩
      simp only [Step, hk] at hs; subst hs; exact hob
    · obtain ⟨out, hs, hob⟩ := handle_refines h ho (c := .srandmember k (some n)) ⟨l, hr, hl⟩
      simp only [Step, hk] at hs; subst hs; exact hob

/-- C24 (the exception): without count an existing empty set kills the server. -/
theorem C24_empty_crashes (h : Abs st a) (ho : env.ord.Fair) (hk : a.sets k = some ∅)
    (hr : Request objs b!"spop" [k] ∨ Request objs b!"srandmember" [k]) : Crashes env st objs := by
  rcases hr with hr | hr
  · obtain ⟨out, hs, hob⟩ := handle_refines h ho (c := .spop k none) hr
    simp only [Step, hk] at hs
    obtain ⟨ms, h1, h2, h3, hs⟩ := hs
    match ms, h3 with
    | [], _ => simp only at hs; subst hs; exact hob
    | _ :: _, h3 => simp at h3
  · obtain ⟨out, hs, hob⟩ := handle_refines h ho (c := .srandmember k none) hr
    simp only [Step, hk] at hs
    obtain ⟨ms, h1, h2, h3, hs⟩ := hs
    match ms, h3 with
    | [], _ => simp only at hs; subst hs; exact hob
    | _ :: _, h3 => simp at h3

/-- C24 (counterexample): in a reachable state SPOP of an existing empty set kills the server. -/
theorem C24_false : ∃ st, Reachable st ∧ handle env0 st (req [b!"SPOP", b!"o"]) = .panic := by
  obtain ⟨st, hr, ha⟩ := sample_reachable
  exact ⟨st, hr, C24_empty_crashes ha env0_fair (k := b!"o") rfl (.inl (request_req _))⟩

/-- The hypotheses can be met: SPOP s -2 on a set of three. -/
example : ∃ st, Reachable st ∧ Abs st sampleDB ∧ Request (req [b!"spop", b!"s", b!"-2"]) b!"spop" [b!"s", b!"-2"] ∧ IsInt b!"-2" (-2) ∧
    sampleDB.sets b!"s" = some {b!"x", b!"y", b!"z"} ∧ ({b!"x", b!"y", b!"z"} : Finset Bytes) ≠ ∅ := by
  obtain ⟨st, hr, ha⟩ := sample_reachable
  exact ⟨st, hr, ha, request_req _, isInt_iff.2 (by decide), rfl, by decide⟩

end Verif.Props
