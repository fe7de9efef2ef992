import Verif.Props.Shelf
import Verif.Props.SheetLives
import Verif.Props.JournalLives
import Verif.Props.RollLives
import Verif.Props.RowLives

/-! # C98 – what many users see of a list, of a string and of the sets, over restarts -/

namespace Verif.Props

open Spec
open Fut (upd)

variable {m : Bool} {ω : Nat → Nat} {U : Nat → Bool} {d : Bytes} {st : State}

/-- C98 (lists), for such processes: a list has one content after the other over all processes, first none; every command that reads it shows one of them, every command
that writes it makes the next, in the order in which the users see replies and type lines, and the next process begins with the last. What is missing is refuted by `C98_journal_false`. -/
theorem C98_list_partial {trs : List (List Site.Ev)} {d : Bytes} (hl : SiteLives m U trs d) (hq : ∀ tr ∈ trs, Plainly (wholeOf (fullOf (procOf tr))))
    (hz : ∀ tr ∈ trs, ∀ x ∈ doneIn (seenOver (procOf tr)), Sized x.2.2) (k : Bytes) {envs : Nat → Env} (hfair : ∀ i, (envs i).ord.Fair) :
    ∃ ms ver a dbs, ContentsIn U trs (ReadsList k) (WritesList k) ms ver ∧ ms[0]? = some none ∧
      (∀ n m m', ms[n]? = some m → ms[n + 1]? = some m' → ∃ tr ∈ trs, ∃ objs x P r, Ran (deskOf tr) objs ∧ Means objs x ∧ WritesList k x P ∧ P m m' r) ∧
      fromFile noDBs envs d = .ok dbs ∧ Abs (dbs 1) a ∧ ms.getLast? = some (a.lists k) :=
  contents_in (f := fun a => a.lists k) (list_passes k) hl hq hz hfair

/-- C98 (strings), for such processes: likewise a string. What is missing is refuted by `C98_rows_false`. -/
theorem C98_text_partial {trs : List (List Site.Ev)} {d : Bytes} (hl : SiteLives m U trs d) (hq : ∀ tr ∈ trs, Plainly (wholeOf (fullOf (procOf tr))))
    (hz : ∀ tr ∈ trs, ∀ x ∈ doneIn (seenOver (procOf tr)), Sized x.2.2) (k : Bytes) {envs : Nat → Env} (hfair : ∀ i, (envs i).ord.Fair) :
    ∃ ms ver a dbs, ContentsIn U trs (ReadsText k) (WritesText k) ms ver ∧ ms[0]? = some none ∧
      (∀ n m m', ms[n]? = some m → ms[n + 1]? = some m' → ∃ tr ∈ trs, ∃ objs x P r, Ran (deskOf tr) objs ∧ Means objs x ∧ WritesText k x P ∧ P m m' r) ∧
      fromFile noDBs envs d = .ok dbs ∧ Abs (dbs 1) a ∧ ms.getLast? = some (a.strs k) :=
  contents_in (f := fun a => a.strs k) (text_passes k) hl hq hz hfair

/-- C98 (sets), for such processes: likewise all the sets together. What is missing is refuted by `C98_roll_false`. -/
theorem C98_sets_partial {trs : List (List Site.Ev)} {d : Bytes} (hl : SiteLives m U trs d) (hq : ∀ tr ∈ trs, Plainly (wholeOf (fullOf (procOf tr))))
    (hz : ∀ tr ∈ trs, ∀ x ∈ doneIn (seenOver (procOf tr)), Sized x.2.2) {envs : Nat → Env} (hfair : ∀ i, (envs i).ord.Fair) :
    ∃ ms ver a dbs, ContentsIn U trs ReadsSets WritesSets ms ver ∧ ms[0]? = some (fun _ => none) ∧
      (∀ n m m', ms[n]? = some m → ms[n + 1]? = some m' → ∃ tr ∈ trs, ∃ objs x P r, Ran (deskOf tr) objs ∧ Means objs x ∧ WritesSets x P ∧ P m m' r) ∧
      fromFile noDBs envs d = .ok dbs ∧ Abs (dbs 1) a ∧ ms.getLast? = some a.sets :=
  contents_in (f := DB.sets) sets_passes hl hq hz hfair

/-- A user appends to a list in one process, and in the next counts the entries. -/
example : ∃ tr0 tr1 d, SiteLives true (· == 7) [tr0, tr1] d ∧ (∀ tr ∈ [tr0, tr1], Plainly (wholeOf (fullOf (procOf tr)))) ∧
    (∀ tr ∈ [tr0, tr1], ∀ x ∈ doneIn (seenOver (procOf tr)), Sized x.2.2) ∧
    GotIn [tr0, tr1] 0 7 0 (.rpush b!"q" [b!"x"]) (.int 1) ∧ GotIn [tr0, tr1] 1 7 0 (.llen b!"q") (.int 1) := by
  obtain ⟨tr0, d0, h0⟩ := oneEach_nil.next begins_empty abs_empty (ws := [b!"rpush", b!"q", b!"x"]) (r := .int 1) rfl rpush_parses rpush_typable (.int (by omega) (by omega)) (by decide)
    ⟨sent_occurs, sent_is (by decide), sent_is (by decide), sent_text⟩
  obtain ⟨st0, a0, b0, m0, t0⟩ := h0.begins
  obtain ⟨st1, e1⟩ := llen_one m0
  rw [pushed_trace t0] at e1
  obtain ⟨tr1, d1, h1⟩ := h0.next b0 m0 (r := .int 1) e1 llen_parses llen_typable (.int (by omega) (by omega)) (by decide) ⟨sent_occurs, sent_is (by decide), sent_is (by decide), sent_text⟩
  exact ⟨tr0, tr1, d1, h1.lives, h1.plain, h1.sized, h1.got (n := 0) (ws := [b!"rpush", b!"q", b!"x"]) (r := .int 1) rfl (command_means rfl),
    h1.got (n := 1) (ws := [b!"llen", b!"q"]) (r := .int 1) rfl llen_means⟩

/-- A user sets two keys in one process, and reads them in the next. -/
example : ∃ tr0 tr1 d, SiteLives true (· == 7) [tr0, tr1] d ∧ (∀ tr ∈ [tr0, tr1], Plainly (wholeOf (fullOf (procOf tr)))) ∧
    (∀ tr ∈ [tr0, tr1], ∀ x ∈ doneIn (seenOver (procOf tr)), Sized x.2.2) ∧
    GotIn [tr0, tr1] 0 7 0 (.mset [b!"a", b!"b"] [b!"1", b!"1"]) okReply ∧ GotIn [tr0, tr1] 1 7 0 (.mget [b!"a", b!"b"]) (.array [.bulk b!"1", .bulk b!"1"]) := by
  obtain ⟨tr0, d0, h0⟩ := oneEach_nil.next begins_empty abs_empty (ws := [b!"mset", b!"a", b!"1", b!"b", b!"1"]) (r := okReply) rfl mset_parses mset_typable .simple (by decide)
    ⟨sent_occurs, sent_is (by decide), sent_is (by decide), sent_text⟩
  obtain ⟨st0, a0, b0, m0, t0⟩ := h0.begins
  obtain ⟨st1, e1⟩ := mget_one m0
  rw [mset_trace t0] at e1
  obtain ⟨tr1, d1, h1⟩ := h0.next b0 m0 (r := .array [.bulk b!"1", .bulk b!"1"]) e1 mget_parses mget_typable (.array (by simp) (by simp; exact .bulk (by simp))) (by decide)
    ⟨sent_occurs, sent_is (by decide), sent_is (by decide), sent_text⟩
  exact ⟨tr0, tr1, d1, h1.lives, h1.plain, h1.sized, h1.got (n := 0) (ws := [b!"mset", b!"a", b!"1", b!"b", b!"1"]) (r := okReply) rfl mset_means,
    h1.got (n := 1) (ws := [b!"mget", b!"a", b!"b"]) (r := .array [.bulk b!"1", .bulk b!"1"]) rfl mget_means⟩

/-- A user adds a name to a set in one process, and in the next is told that it is there. -/
example : ∃ tr0 tr1 d, SiteLives true (· == 7) [tr0, tr1] d ∧ (∀ tr ∈ [tr0, tr1], Plainly (wholeOf (fullOf (procOf tr)))) ∧
    (∀ tr ∈ [tr0, tr1], ∀ x ∈ doneIn (seenOver (procOf tr)), Sized x.2.2) ∧
    GotIn [tr0, tr1] 0 7 0 (.sadd b!"l" [b!"m"]) (.int 1) ∧ GotIn [tr0, tr1] 1 7 0 (.sadd b!"l" [b!"m"]) (.int 0) := by
  obtain ⟨tr0, d0, h0⟩ := oneEach_nil.next begins_empty abs_empty (ws := [b!"sadd", b!"l", b!"m"]) (r := .int 1) rfl sadd_parses sadd_typable (.int (by omega) (by omega)) (by decide)
    ⟨sent_occurs, sent_is (by decide), sent_is (by decide), sent_text⟩
  obtain ⟨st0, a0, b0, m0, t0⟩ := h0.begins
  obtain ⟨st1, e1⟩ := add_again m0 (added_trace t0)
  obtain ⟨tr1, d1, h1⟩ := h0.next b0 m0 e1 sadd_parses sadd_typable (.int (by omega) (by omega)) (by decide) ⟨sent_occurs, sent_is (by decide), sent_is (by decide), sent_text⟩
  exact ⟨tr0, tr1, d1, h1.lives, h1.plain, h1.sized, h1.got (n := 0) (ws := [b!"sadd", b!"l", b!"m"]) (r := .int 1) rfl sadd_means,
    h1.got (n := 1) (ws := [b!"sadd", b!"l", b!"m"]) (r := .int 0) rfl sadd_means⟩

end Verif.Props
