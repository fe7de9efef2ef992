import Verif.Props.Survives
import Verif.Props.ShelfLives

/-! # C108 – what every command keeps, as users see it over restarts -/

namespace Verif.Props

open Spec
open Fut (upd)

variable {m : Bool} {ω : Nat → Nat} {U : Nat → Bool}

/-- C108, as users see it, for processes whose log is written before they exit: what holds of an empty database and is kept by every command executed in any of the processes, holds of the next one, and
every line a user types in any of them is answered as from a database of which it holds. What is missing is refuted by `C108_kept_false`. -/
theorem C108_users_partial {trs : List (List Site.Ev)} {d : Bytes} (hl : SiteLives m U trs d) (hq : ∀ tr ∈ trs, Plainly (wholeOf (fullOf (procOf tr))))
    (hz : ∀ tr ∈ trs, ∀ x ∈ doneIn (seenOver (procOf tr)), Sized x.2.2) {P : DB → Prop} (hp : P DB.empty)
    (hk : ∀ tr ∈ trs, ∀ objs x b b1 o, Ran (deskOf tr) objs → Means objs x → P b → Step b x (some (b1, o)) → P b1) {envs : Nat → Env} (hfair : ∀ i, (envs i).ord.Fair) :
    (∃ a dbs, fromFile noDBs envs d = .ok dbs ∧ Abs (dbs 1) a ∧ P a) ∧
      ∀ n c i x r, U c = true → GotIn trs n c i x r → ∃ b b1, P b ∧ P b1 ∧ (Step b x (done b1 r) ∨ ∃ e, Step b x (fails b1 e) ∧ ErrorReply e r) := by
  obtain ⟨segs, a, dbs, h1, h2, h3, h4⟩ := lives_record hl hq hz hfair
  obtain ⟨-, place, hj⟩ := joined h1
  obtain ⟨g1, g2⟩ := trace_keeps h2 (fun q hq x b b1 o hm hb hs => by
    obtain ⟨tr, ht, hr⟩ := hj.ran q hq
    exact hk tr ht q x b b1 o hr hm hb hs) hp
  exact ⟨⟨a, dbs, h3, h4, g1⟩, fun n c i x r hu hg => g2 _ x r (hj.each hu hg)⟩

/-- C108: so, over such processes, whoever reads two keys that are only set together, to the same text, with one MGET, sees the same twice. -/
theorem C108_pair_partial {trs : List (List Site.Ev)} {d : Bytes} (hl : SiteLives m U trs d) (hq : ∀ tr ∈ trs, Plainly (wholeOf (fullOf (procOf tr))))
    (hz : ∀ tr ∈ trs, ∀ x ∈ doneIn (seenOver (procOf tr)), Sized x.2.2) {k k' : Bytes}
    (hk : ∀ tr ∈ trs, ∀ objs, Ran (deskOf tr) objs → Writes .str objs k ∨ Writes .str objs k' → ∃ v, Means objs (.mset [k, k'] [v, v]))
    {n c i : Nat} {r : Resp} (hu : U c = true) (hg : GotIn trs n c i (.mget [k, k']) r) : ∃ o, r = .array [o, o] := by
  obtain ⟨b, b1, g1, -, g | ⟨e, g, -⟩⟩ := (C108_users_partial hl hq hz (P := fun a => a.strs k = a.strs k') rfl (fun tr ht objs x b b1 o hr hm hb hs =>
    together_kept (q := ⟨stamp0, env0, objs⟩) (hk tr ht objs hr) x b b1 o hm hb hs) (envs := fun _ => env0) fun _ => env0_fair).2 n c i _ r hu hg
  · cases g
    exact ⟨bulk? (b.strs k'), by simp [g1]⟩
  · cases g

/-- The hypotheses of `C108_users_partial` and `C108_pair_partial`: a user sets two keys in one process, and reads them in the next. -/
example : ∃ tr0 tr1 d, SiteLives true (· == 7) [tr0, tr1] d ∧ (∀ tr ∈ [tr0, tr1], Plainly (wholeOf (fullOf (procOf tr)))) ∧
    (∀ tr ∈ [tr0, tr1], ∀ x ∈ doneIn (seenOver (procOf tr)), Sized x.2.2) ∧
    (∀ tr ∈ [tr0, tr1], ∀ objs, Ran (deskOf tr) objs → Writes .str objs b!"a" ∨ Writes .str objs b!"b" → ∃ v, Means objs (.mset [b!"a", b!"b"] [v, v])) ∧
    GotIn [tr0, tr1] 0 7 0 (.mset [b!"a", b!"b"] [b!"1", b!"1"]) okReply ∧ GotIn [tr0, tr1] 1 7 0 (.mget [b!"a", b!"b"]) (.array [.bulk b!"1", .bulk b!"1"]) := by
  obtain ⟨tr0, d0, h0⟩ := oneEach_nil.next begins_empty abs_empty (ws := [b!"mset", b!"a", b!"1", b!"b", b!"1"]) (r := okReply) rfl mset_parses mset_typable .simple (by decide)
    ⟨sent_occurs, sent_is (by decide), sent_is (by decide), sent_text⟩
  obtain ⟨st0, a0, b0, m0, t0⟩ := h0.begins
  obtain ⟨st1, e1⟩ := mget_one m0
  rw [mset_trace t0] at e1
  obtain ⟨tr1, d1, h1⟩ := h0.next b0 m0 (r := .array [.bulk b!"1", .bulk b!"1"]) e1 mget_parses mget_typable (.array (by simp) (by simp; exact .bulk (by simp))) (by decide)
    ⟨sent_occurs, sent_is (by decide), sent_is (by decide), sent_text⟩
  have g0 := h1.got (n := 0) (ws := [b!"mset", b!"a", b!"1", b!"b", b!"1"]) (r := okReply) rfl mset_means
  have g1 := h1.got (n := 1) (ws := [b!"mget", b!"a", b!"b"]) (r := .array [.bulk b!"1", .bulk b!"1"]) rfl mget_means
  have h := h1.each
  cases h with
  | cons k0 h =>
    cases h with
    | cons k1 h =>
      refine ⟨tr0, tr1, d1, h1.lives, h1.plain, h1.sized, fun tr ht objs hr hw => ?_, g0, g1⟩
      simp only [List.mem_cons, List.not_mem_nil, or_false] at ht
      rcases ht with rfl | rfl
      · rw [ran_one (k0.2.1.trans k0.1) hr]
        exact ⟨_, mset_means⟩
      · rw [ran_one (k1.2.1.trans k1.1) hr] at hw
        exact (hw.elim (only_reads (by decide) (by decide)) (only_reads (by decide) (by decide))).elim

end Verif.Props
