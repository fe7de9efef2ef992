import Verif.Spec.SheetLives
import Verif.Props.Sheet
import Verif.Props.RecipeLives

/-! # C98 – what many users see of a hash, over restarts -/

namespace Verif.Props

open Spec
open Fut (upd)

variable {m : Bool} {ω : Nat → Nat} {U : Nat → Bool} {d : Bytes} {st : State}

/-- Any place that each command writes, reads or leaves. -/
theorem contents_in {S : Type} {R : Command → (S → Resp → Prop) → Prop} {W : Command → (S → S → Resp → Prop) → Prop} {f : DB → S}
    (hp : ∀ {a a' : DB} {qs : List (List Resp)} {rs : List Resp}, Trace a qs rs a' → ∃ ms ver, Passes R W qs rs (f a) (f a') ms ver)
    {trs : List (List Site.Ev)} {d : Bytes} (hl : SiteLives m U trs d) (hq : ∀ tr ∈ trs, Plainly (wholeOf (fullOf (procOf tr))))
    (hz : ∀ tr ∈ trs, ∀ x ∈ doneIn (seenOver (procOf tr)), Sized x.2.2) {envs : Nat → Env} (hfair : ∀ i, (envs i).ord.Fair) :
    ∃ ms ver a dbs, ContentsIn U trs R W ms ver ∧ ms[0]? = some (f DB.empty) ∧
      (∀ n m m', ms[n]? = some m → ms[n + 1]? = some m' → ∃ tr ∈ trs, ∃ objs x P r, Ran (deskOf tr) objs ∧ Means objs x ∧ W x P ∧ P m m' r) ∧
      fromFile noDBs envs d = .ok dbs ∧ Abs (dbs 1) a ∧ ms.getLast? = some (f a) := by
  obtain ⟨segs, a, dbs, h1, h2, h3, h4⟩ := lives_record hl hq hz hfair
  obtain ⟨hlen, place, hj⟩ := joined h1
  obtain ⟨ms, ver, hv⟩ := hp h2
  refine ⟨ms, fun n c i => ver (place n c i), a, dbs, ?_, hv.begins, fun n v v' hn hn' => ?_, h3, h4, hv.ends⟩
  · refine ⟨fun n c i x P r hu hx hg => hv.reads _ x P r hx (hj.each hu hg), fun n c i x P r hu hx hg => hv.writes _ x P r hx (hj.each hu hg),
      fun n n' c c' i j x x' P P' r r' hu hu' hx hx' hg hg' he => ?_, fun n n' c c' i j x x' r r' hu hu' hg hg' he => ?_,
      fun n n' c c' i j y x P r r' hu hu' hx hg hg' he => ?_⟩
    · refine hj.distinct hu hu' hg hg' ?_
      rcases Nat.lt_trichotomy (place n c i) (place n' c' j) with hlt | e | hlt
      · have := hv.anew _ _ x' P' r' hlt hx' (hj.each hu' hg')
        omega
      · exact e
      · have := hv.anew _ _ x P r hlt hx (hj.each hu hg)
        omega
    · obtain ⟨q, g, -⟩ := hj.each hu' hg'
      exact hv.ordered _ _ (hj.inTime hu hu' hg hg' he) (List.getElem?_eq_some_iff.1 g).1
    · exact hv.anew _ _ x P r' (hj.inTime hu hu' hg hg' he) hx (hj.each hu' hg')
  · obtain ⟨q, g1, x, P, r, g2, g3, g4⟩ := hv.made n v v' hn hn'
    obtain ⟨tr, ht, hr⟩ := hj.ran q g1
    exact ⟨tr, ht, q, x, P, r, hr, g2, g3, g4⟩

/-- C98 (hashes), for such processes: a hash has one content after the other over all processes, first none; every command that reads it shows one of them, every HSET and HDEL makes one,
in the order in which the users see replies and type lines, and the next process begins with the last. What is missing is refuted by `C98_sheet_false`. -/
theorem C98_sheet_partial {trs : List (List Site.Ev)} {d : Bytes} (hl : SiteLives m U trs d) (hq : ∀ tr ∈ trs, Plainly (wholeOf (fullOf (procOf tr))))
    (hz : ∀ tr ∈ trs, ∀ x ∈ doneIn (seenOver (procOf tr)), Sized x.2.2) (k : Bytes) {envs : Nat → Env} (hfair : ∀ i, (envs i).ord.Fair) :
    ∃ ms ver a dbs, SheetIn U trs k ms ver ∧ ms[0]? = some ∅ ∧
      (∀ n m m', ms[n]? = some m → ms[n + 1]? = some m' → ∃ tr ∈ trs, ∃ objs x P r, Ran (deskOf tr) objs ∧ Means objs x ∧ WritesHash k x P ∧ P m m' r) ∧
      fromFile noDBs envs d = .ok dbs ∧ Abs (dbs 1) a ∧ ms.getLast? = some (a.hashAt k) :=
  contents_in (f := fun a => a.hashAt k) (hash_passes k) hl hq hz hfair

/-- What the hash has after its fields were set. -/
theorem hset_trace {a : DB} {rs : List Resp} (h : Trace DB.empty [req [b!"hset", b!"h", b!"f", b!"1", b!"g", b!"2"]] rs a) :
    [b!"f", b!"g"].map (fun f => (a.hashAt b!"h").lookup f) = [some b!"1", some b!"2"] := by
  obtain ⟨a1, r, rs', rfl, h1, -, -, -, h2⟩ := trace_first h
  cases h1
  rcases h2 _ hset_means with h3 | ⟨e, t, h3, -⟩
  · obtain ⟨_, -, g, -⟩ := hash_written (.hset (by simp)) h3
    simp only [List.map_cons, List.map_nil, g]
    rfl
  · obtain ⟨_, g, -⟩ := hash_written (.hset (by simp)) h3
    cases g

theorem hmget_one {st : State} {a : DB} (h : Abs st a) :
    ∃ st1, handle env0 st (req [b!"hmget", b!"h", b!"f", b!"g"]) = .ok (st1, .array (([b!"f", b!"g"].map fun f => (a.hashAt b!"h").lookup f).map bulk?)) := by
  obtain ⟨out, h1, h2⟩ := handle_refines h env0_fair hmget_means
  cases h1
  obtain ⟨st1, h3, -⟩ := h2
  exact ⟨st1, h3⟩

/-- A user sets two fields in one process, and reads them in the next. -/
example : ∃ tr0 tr1 d, SiteLives true (· == 7) [tr0, tr1] d ∧ (∀ tr ∈ [tr0, tr1], Plainly (wholeOf (fullOf (procOf tr)))) ∧
    (∀ tr ∈ [tr0, tr1], ∀ x ∈ doneIn (seenOver (procOf tr)), Sized x.2.2) ∧
    GotIn [tr0, tr1] 0 7 0 (.hset b!"h" [b!"f", b!"g"] [b!"1", b!"2"]) (.int 2) ∧
    GotIn [tr0, tr1] 1 7 0 (.hmget b!"h" [b!"f", b!"g"]) (.array [.bulk b!"1", .bulk b!"2"]) := by
  obtain ⟨tr0, d0, h0⟩ := oneEach_nil.next begins_empty abs_empty (ws := [b!"hset", b!"h", b!"f", b!"1", b!"g", b!"2"]) (r := .int 2) rfl hset_parses hset_typable
    (.int (by omega) (by omega)) (by decide) ⟨sent_occurs, sent_is (by decide), sent_is (by decide), sent_text⟩
  obtain ⟨st0, a0, b0, m0, t0⟩ := h0.begins
  obtain ⟨st1, e1⟩ := hmget_one m0
  rw [hset_trace t0] at e1
  obtain ⟨tr1, d1, h1⟩ := h0.next b0 m0 (r := .array [.bulk b!"1", .bulk b!"2"]) e1 hmget_parses hmget_typable
    (.array (by simp) (by simp; exact ⟨.bulk (by simp), .bulk (by simp)⟩)) (by decide) ⟨sent_occurs, sent_is (by decide), sent_is (by decide), sent_text⟩
  exact ⟨tr0, tr1, d1, h1.lives, h1.plain, h1.sized,
    h1.got (n := 0) (ws := [b!"hset", b!"h", b!"f", b!"1", b!"g", b!"2"]) (r := .int 2) rfl hset_means,
    h1.got (n := 1) (ws := [b!"hmget", b!"h", b!"f", b!"g"]) (r := .array [.bulk b!"1", .bulk b!"2"]) rfl hmget_means⟩

/-- The full claim about hashes: a process exits when no writer waits and nothing has failed at the file, the next begins with the file, and in both nothing but HSET of the same
distinct fields to the same values is done to write a hash; then who reads them in the second, after somebody in the first was answered, sees these values. -/
def SheetLasts : Prop := ∀ (ω : Nat → Nat) (U : Nat → Bool) (st' : State) (tr tr' : List Site.Ev) (s s' : Site.Sys) (k : Bytes) (fs vs : List Bytes) (c c' i j : Nat) (n : Int) (r : Resp),
  Exec (Site.Step true ω U) (Site.new [] State.empty) tr s → s.proc.stop.exited = true → s.proc.full.whole.begun = none →
  s.proc.full.whole.pending = [] → s.proc.full.whole.file.failed = false → Begins s.proc.full.whole.file.disk st' →
  Exec (Site.Step true ω U) (Site.new s.proc.full.whole.file.disk st') tr' s' → fs.Nodup → fs ≠ [] →
  (∀ objs, Ran (deskOf tr) objs ∨ Ran (deskOf tr') objs → Writes .hash objs k → Means objs (.hset k fs vs)) → U c = true → U c' = true →
  Got (deskOf tr) c i (.hset k fs vs) (.int n) → Got (deskOf tr') c' j (.hmget k fs) r → r = .array (vs.map .bulk)

/-- C98 (hashes): it is not so. -/
theorem C98_sheet_false : ¬ SheetLasts := by
  intro hc
  obtain ⟨tr, s, l, h1, h2, h3, h4, h5, h6, h7, h8, h9, h10⟩ := exits_unwritten (d := []) abs_empty hset_parses (r := .int 2) rfl hset_typable (.int (by omega) (by omega)) rfl
    (by decide +kernel) (by decide +kernel)
  obtain ⟨ptr, p, g1, g2, -, -, -, -, -, -, -, -, -, -, -, g3⟩ := one_proc (m := true) (ω := fun _ => 100000) (d := []) (st := State.empty) (ws := [b!"hmget", b!"h", b!"f", b!"g"])
    (r := .array [.nullBulk, .nullBulk]) hmget_parses rfl
  obtain ⟨tr', s', l', k1, k2, -, -, k4, k5, k6⟩ := one_user abs_empty hmget_typable (.array (by simp) (by simp; exact .nullBulk)) g1 g2 g3
  have := hc _ _ State.empty tr tr' s s' b!"h" [b!"f", b!"g"] [b!"1", b!"2"] 7 7 0 0 2 (.array [.nullBulk, .nullBulk]) h1 h2 h3 h4 h5 (by rw [h6]; exact begins_empty)
    (by rw [h6]; exact k1) (by decide) (by simp) (fun objs ho hw => ?_) rfl rfl
    ⟨l, by rw [h8]; rfl, ⟨_, h9, hset_means⟩, by rw [h10]; rfl⟩ ⟨l', by rw [k4]; rfl, ⟨_, k5, hmget_means⟩, by rw [k6]; rfl⟩
  · simp at this
  · rcases ho with ho | ho
    · rw [ran_one (by rw [← h7, (C86_parts h1).2.2]; rfl) ho]
      exact hset_means
    · rw [ran_one (by rw [← g2, ← k2, (C86_parts k1).2.2]; rfl) ho] at hw
      exact absurd hw (only_reads (by decide) (by decide))

end Verif.Props
