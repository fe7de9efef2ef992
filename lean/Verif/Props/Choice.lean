import Verif.Lemmas.Choice
import Verif.Lemmas.Sample

/-!
# C75 – every order and every choice can happen

C21 to C24 say that an answer is one of the allowed ones whatever order the Go runtime iterates in. Conversely each allowed answer is
given under some order of iteration that the Go specification permits: a client can rely on nothing beyond C21 to C24.
-/

namespace Verif.Props

open Verif Spec

variable {st : State} {a : DB} {objs : List Resp} {k : Bytes}

/-- C75 (hashes): every enumeration of the fields can be the answer of HKEYS, HVALS and HGETALL. -/
theorem C75_hash {m : Hash} {ps : List (Bytes × Bytes)} (h : Abs st a) (hk : a.hashes k = some m) (hp : HashEntries ps m) :
    (Request objs b!"hkeys" [k] → ∃ env : Env, env.ord.Fair ∧ Answers env st objs a (.array (ps.map fun p => .bulk p.1))) ∧
    (Request objs b!"hvals" [k] → ∃ env : Env, env.ord.Fair ∧ Answers env st objs a (.array (ps.map fun p => .bulk p.2))) ∧
    (Request objs b!"hgetall" [k] →
      ∃ env : Env, env.ord.Fair ∧ Answers env st objs a (.array (ps.flatMap fun p => [.bulk p.1, .bulk p.2]))) := by
  refine ⟨fun hr => ?_, fun hr => ?_, fun hr => ?_⟩
  · obtain ⟨ts, ho⟩ := handle_choice env0 h (c := .hkeys k) (out := done a _) hr trivial (by simp only [Step, hk]; exact ⟨ps, hp, rfl⟩)
    exact ⟨_, forced_fair ts, ho⟩
  · obtain ⟨ts, ho⟩ := handle_choice env0 h (c := .hvals k) (out := done a _) hr trivial (by simp only [Step, hk]; exact ⟨ps, hp, rfl⟩)
    exact ⟨_, forced_fair ts, ho⟩
  · obtain ⟨ts, ho⟩ := handle_choice env0 h (c := .hgetall k) (out := done a _) hr trivial (by simp only [Step, hk]; exact ⟨ps, hp, rfl⟩)
    exact ⟨_, forced_fair ts, ho⟩

/-- C75 (SMEMBERS): every order of the members can be the answer. -/
theorem C75_smembers {s : Finset Bytes} {ms : List Bytes} (h : Abs st a) (hk : a.sets k = some s) (hm : Enumerates ms (· ∈ s))
    (hr : Request objs b!"smembers" [k]) : ∃ env : Env, env.ord.Fair ∧ Answers env st objs a (.array (ms.map .bulk)) := by
  obtain ⟨ts, ho⟩ := handle_choice env0 h (c := .smembers k) (out := done a _) hr trivial (by simp only [Step, hk]; exact ⟨ms, hm, rfl⟩)
  exact ⟨_, forced_fair ts, ho⟩

/-- C75 (set algebra): so can every order of a difference, an intersection and a union. -/
theorem C75_algebra {ks ms : List Bytes} (h : Abs st a) (hne : ms ≠ []) :
    (Request objs b!"sdiff" (k :: ks) → Enumerates ms (fun x => x ∈ a.setAt k ∧ ∀ k' ∈ ks, x ∉ a.setAt k') →
      ∃ env : Env, env.ord.Fair ∧ Answers env st objs a (.array (ms.map .bulk))) ∧
    (Request objs b!"sinter" (k :: ks) → Enumerates ms (fun x => x ∈ a.setAt k ∧ ∀ k' ∈ ks, x ∈ a.setAt k') →
      ∃ env : Env, env.ord.Fair ∧ Answers env st objs a (.array (ms.map .bulk))) ∧
    (Request objs b!"sunion" (k :: ks) → Enumerates ms (fun x => x ∈ a.setAt k ∨ ∃ k' ∈ ks, x ∈ a.setAt k') →
      ∃ env : Env, env.ord.Fair ∧ Answers env st objs a (.array (ms.map .bulk))) := by
  have hb : bulksOrNull ms = .array (ms.map .bulk) := if_neg hne
  refine ⟨fun hr hm => ?_, fun hr hm => ?_, fun hr hm => ?_⟩
  · obtain ⟨ts, ho⟩ := handle_choice env0 h (c := .sdiff (k :: ks)) (out := done a _) ⟨by simp, hr⟩ trivial ⟨ms, hm, rfl⟩
    rw [hb] at ho
    exact ⟨_, forced_fair ts, ho⟩
  · obtain ⟨ts, ho⟩ := handle_choice env0 h (c := .sinter (k :: ks)) (out := done a _) ⟨by simp, hr⟩ trivial
      ⟨ms, by simpa using hm, rfl⟩
    rw [hb] at ho
    exact ⟨_, forced_fair ts, ho⟩
  · obtain ⟨ts, ho⟩ := handle_choice env0 h (c := .sunion (k :: ks)) (out := done a _) ⟨by simp, hr⟩ trivial
      ⟨ms, by simpa using hm, rfl⟩
    rw [hb] at ho
    exact ⟨_, forced_fair ts, ho⟩

/-- C75 (SPOP and SRANDMEMBER with a count): every choice of min(|n|, card) different members, in every order, can be the answer; SPOP
then removes these. -/
theorem C75_count {l : Bytes} {n : Int} {s : Finset Bytes} {ms : List Bytes} (h : Abs st a) (hl : IsInt l n) (hk : a.sets k = some s)
    (h1 : ms.Nodup) (h2 : ∀ x ∈ ms, x ∈ s) (h3 : ms.length = min n.natAbs s.card) (hne : ms ≠ []) :
    (Request objs b!"spop" [k, l] → ∃ env : Env, env.ord.Fair ∧ ∃ s', (∀ x, x ∈ s' ↔ x ∈ s ∧ x ∉ ms) ∧
      Answers env st objs (a.setSet k s') (.array (ms.map .bulk))) ∧
    (Request objs b!"srandmember" [k, l] → ∃ env : Env, env.ord.Fair ∧ Answers env st objs a (.array (ms.map .bulk))) := by
  have hb : bulksOrNull ms = .array (ms.map .bulk) := if_neg hne
  have hsub : ms.toFinset ⊆ s := fun x hx => h2 x (List.mem_toFinset.1 hx)
  refine ⟨fun hr => ?_, fun hr => ?_⟩
  · obtain ⟨ts, ho⟩ := handle_choice env0 h (c := .spop k (some n)) (out := done (a.setSet k (s \ ms.toFinset)) (bulksOrNull ms))
      ⟨l, hr, hl⟩ trivial (by simp only [Step, hk]; exact ⟨ms, h1, hsub, h3, rfl⟩)
    rw [hb] at ho
    exact ⟨_, forced_fair ts, _, by simp, ho⟩
  · obtain ⟨ts, ho⟩ := handle_choice env0 h (c := .srandmember k (some n)) (out := done a (bulksOrNull ms))
      ⟨l, hr, hl⟩ trivial (by simp only [Step, hk]; exact ⟨ms, h1, hsub, h3, rfl⟩)
    rw [hb] at ho
    exact ⟨_, forced_fair ts, ho⟩

/-- C75 (SPOP and SRANDMEMBER without a count): every member can be the answer; SPOP then removes it. -/
theorem C75_single {x : Bytes} {s : Finset Bytes} (h : Abs st a) (hk : a.sets k = some s) (hx : x ∈ s) :
    (Request objs b!"spop" [k] → ∃ env : Env, env.ord.Fair ∧ ∃ s', (∀ y, y ∈ s' ↔ y ∈ s ∧ y ≠ x) ∧
      Answers env st objs (a.setSet k s') (.bulk x)) ∧
    (Request objs b!"srandmember" [k] → ∃ env : Env, env.ord.Fair ∧ Answers env st objs a (.bulk x)) := by
  have hsub : [x].toFinset ⊆ s := by simpa using hx
  have hc : [x].length = min ((none : Option Int).getD 1).natAbs s.card := by
    have : 0 < s.card := Finset.card_pos.2 ⟨x, hx⟩
    show 1 = min 1 s.card
    omega
  refine ⟨fun hr => ?_, fun hr => ?_⟩
  · obtain ⟨ts, ho⟩ := handle_choice env0 h (c := .spop k none) (out := done (a.setSet k (s \ [x].toFinset)) (.bulk x)) hr trivial
      (by simp only [Step, hk]; exact ⟨[x], by simp, hsub, hc, rfl⟩)
    exact ⟨_, forced_fair ts, _, by simp, ho⟩
  · obtain ⟨ts, ho⟩ := handle_choice env0 h (c := .srandmember k none) (out := done a (.bulk x)) hr trivial
      (by simp only [Step, hk]; exact ⟨[x], by simp, hsub, hc, rfl⟩)
    exact ⟨_, forced_fair ts, ho⟩

/-- The hypotheses can be met: any two of the three members of a set, in any order. -/
example : ∃ st, Reachable st ∧ Abs st sampleDB ∧ Request (req [b!"spop", b!"s", b!"-2"]) b!"spop" [b!"s", b!"-2"] ∧ IsInt b!"-2" (-2) ∧
    sampleDB.sets b!"s" = some {b!"x", b!"y", b!"z"} ∧ [b!"z", b!"x"].Nodup ∧
    (∀ x ∈ [b!"z", b!"x"], x ∈ ({b!"x", b!"y", b!"z"} : Finset Bytes)) ∧
    [b!"z", b!"x"].length = min (-2 : Int).natAbs ({b!"x", b!"y", b!"z"} : Finset Bytes).card := by
  obtain ⟨st, hr, ha⟩ := sample_reachable
  exact ⟨st, hr, ha, request_req _, isInt_iff.2 (by decide), rfl, by decide, by decide, by decide⟩

end Verif.Props
