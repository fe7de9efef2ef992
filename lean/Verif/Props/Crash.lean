import Verif.Props.LogOrder
import Mathlib.Tactic.IntervalCases

/-! # C59 – a crash loses only a tail

The engine, its log writers and the buffered file together with a restart: what the next server starts with when the process ends at any
moment. -/

namespace Verif.Props

open Spec PFile

/-- Of the first `n` requests of `h` everything is in the first `m` bytes of the log, of more requests not. -/
def Kept (h : List Req) (m n : Nat) : Prop :=
  n ≤ h.length ∧ (historyLog (h.take n)).length ≤ m ∧ ∀ i, i ≤ h.length → (historyLog (h.take i)).length ≤ m → i ≤ n

theorem kept_exists (h : List Req) (m : Nat) : ∃ n, Kept h m n := by
  induction h using List.reverseRecOn with
  | nil => exact ⟨0, by simp [Kept, historyLog]⟩
  | append_singleton h q ih =>
    by_cases hl : (historyLog (h ++ [q])).length ≤ m
    · exact ⟨(h ++ [q]).length, le_refl _, by rwa [List.take_length], fun i hi _ => hi⟩
    · obtain ⟨n, h1, h2, h3⟩ := ih
      refine ⟨n, by simp; omega, by rwa [List.take_append_of_le_length h1], fun i hi hm => ?_⟩
      rcases Nat.lt_or_ge h.length i with hlt | hle
      · rw [List.take_of_length_le (by simp; omega)] at hm; exact absurd hm hl
      · rw [List.take_append_of_le_length hle] at hm; exact h3 i hle hm

theorem historyLog_append (h h' : List Req) : historyLog (h ++ h') = historyLog h ++ historyLog h' := by simp [historyLog]

theorem parse_history_cut {h : List Req} (ho : ∀ q ∈ h, q.Occurs ∧ ∀ o ∈ q.objs, TextObj o) {m n : Nat} (hk : Kept h m n) :
    (parseLog ((historyLog h).take m)).1 = historyRecords (h.take n) := by
  obtain ⟨h1, h2, h3⟩ := hk
  obtain ⟨bs, hp, hb⟩ := historyLog_packed (h := h.take n) fun q hq => ho q (List.mem_of_mem_take hq)
  rcases Nat.eq_or_lt_of_le h1 with e | hlt
  · have eh : h.take n = h := List.take_of_length_le (by omega)
    rw [eh] at h2 hb hp ⊢
    rw [List.take_of_length_le h2, hb]
    have := packed_parse hp []
    rw [List.append_nil, parse_short (s := []) (by simp)] at this
    rw [this]; simp
  · have hq := ho h[n] (List.getElem_mem hlt)
    have hn : m < (historyLog (h.take (n + 1))).length := by
      apply Nat.lt_of_not_le; intro hle
      have := h3 (n + 1) hlt hle; omega
    rw [List.take_succ_eq_append_getElem hlt, historyLog_append, List.length_append] at hn
    have e1 : historyLog [h[n]] = requestLog h[n].stamp h[n].objs := by simp [historyLog]
    rw [e1] at hn
    have hl : isLogged h[n].objs = true := by
      cases hl : isLogged h[n].objs
      · simp [requestLog, hl] at hn; omega
      · rfl
    have e2 : (historyLog h).take m = historyLog (h.take n) ++ (requestLog h[n].stamp h[n].objs).take (m - (historyLog (h.take n)).length) := by
      conv => lhs; rw [← List.take_append_drop n h, List.drop_eq_getElem_cons hlt, historyLog_append]
      rw [List.take_append, List.take_of_length_le h2]
      congr 1
      rw [show h[n] :: h.drop (n + 1) = [h[n]] ++ h.drop (n + 1) from rfl, historyLog_append, e1, List.take_append_of_le_length (by omega)]
    obtain ⟨cs, hp', hc⟩ := historyLog_packed (h := [h[n]]) (by simpa using hq)
    have hr : historyRecords [h[n]] = [reqLog h[n]] := by simp [historyRecords, hl]
    rw [hr] at hp'
    obtain ⟨c, rfl⟩ : ∃ c, cs = [c] := by
      cases hp' with
      | cons _ h => cases h; exact ⟨_, rfl⟩
    rw [e1] at hc
    rw [e2, hb, packed_parse hp, hc]
    have hcl : c.length = (requestLog h[n].stamp h[n].objs).length := by rw [hc]; simp
    rw [parse_cut hp' (j := 0) ⟨by simp, by simp, fun i hi hm => ?_⟩]
    · simp
    · simp only [List.length_singleton] at hi
      rcases Nat.eq_zero_or_pos i with rfl | hpos
      · exact le_refl _
      · have : i = 1 := by omega
        subst this
        rw [← hb] at hm
        simp [hcl] at hm; omega

/-- The run never overlaps a writer with the next request (see `C34_false` for what happens otherwise). -/
def RunsUnhurried (ω : Nat → Nat) (h : List Req) (e : Engine) : Prop := Relation.ReflTransGen (Unhurried ω) (Engine.start [] h) e

/-- How many requests have been received. -/
def received (h : List Req) (e : Engine) : Nat := h.length - e.todo.length

theorem unhurried_inv_on {ω : Nat → Nat} {d : Bytes} {st : State} {h : List Req} {e : Engine}
    (hr : Relation.ReflTransGen (Unhurried ω) (Engine.startOn d st h) e) :
    ∃ L, e.todo.length ≤ h.length ∧ L ++ historyLog e.pending = d ++ historyLog (h.take (received h e)) ∧ e.pending.length ≤ 1 ∧
      (∀ q ∈ e.pending, isLogged q.objs = true) ∧ h.drop (received h e) = e.todo ∧ e.file.disk ++ e.file.buf <+: L ∧
      (e.file.failed = false → e.file.disk ++ e.file.buf = L) ∧ e.file.buf.length ≤ bufSize := by
  induction hr with
  | refl => exact ⟨d, by simp [Engine.startOn, Engine.start], by simp [Engine.startOn, Engine.start, received, historyLog], Nat.zero_le _,
      by simp [Engine.startOn, Engine.start], by simp [received, Engine.startOn, Engine.start], by simp [Engine.startOn, Engine.start, PFile.new],
      fun _ => by simp [Engine.startOn, Engine.start, PFile.new], Nat.zero_le _⟩
  | @tail e e' _ hs ih =>
    obtain ⟨L, h0, h1, h2, h3, h4, h5, h6, h7⟩ := ih
    obtain ⟨hs, hu⟩ := hs
    cases hs with
    | @receive q rest ht hc =>
      have hp : e.pending = [] := by
        rcases hu with hu | hu
        · have := congrArg List.length hu
          simp [ht] at this
        · exact hu
      have hl : e.todo.length = rest.length + 1 := by rw [ht]; rfl
      have hn : h.length - rest.length = received h e + 1 := by simp only [received]; omega
      have hlt : received h e < h.length := by simp only [received]; omega
      have hq : h[received h e] = q ∧ h.drop (received h e + 1) = rest := by
        have := h4
        rw [List.drop_eq_getElem_cons hlt, ht] at this
        exact List.cons.inj this
      rw [hp] at h1
      simp only [historyLog, List.flatMap_nil, List.append_nil] at h1
      refine ⟨L, by simp only; omega, ?_, ?_, ?_, ?_, h5, h6, h7⟩
      · change L ++ _ = d ++ historyLog (h.take (h.length - rest.length))
        rw [hn]
        simp only [hp]
        rw [List.take_succ_eq_append_getElem hlt, historyLog_append, hq.1, ← List.append_assoc, show d ++ historyLog (h.take (received h e)) = L from h1.symm]
        simp only [historyLog]
        congr 1
        split
        · rfl
        · rename_i hl; simp [requestLog, hl]
      · simp only [hp]; split <;> simp
      · intro x hx
        simp only [hp] at hx
        split at hx
        · rename_i hl
          have : x = q := by simpa using hx
          rw [this]; exact hl
        · simp at hx
      · change h.drop (h.length - rest.length) = rest
        rw [hn]; exact hq.2
    | @execute q db r hc hh => exact ⟨L, h0, h1, h2, h3, h4, h5, h6, h7⟩
    | @write before after q hp =>
      have hb : before = [] ∧ after = [] := by
        rw [hp] at h2
        simp only [List.length_append, List.length_cons] at h2
        exact ⟨List.eq_nil_of_length_eq_zero (by omega), List.eq_nil_of_length_eq_zero (by omega)⟩
      obtain ⟨rfl, rfl⟩ := hb
      have hq := h3 q (by rw [hp]; simp)
      obtain ⟨g1, g2⟩ := writeRecord_prefix ω e.file hq ⟨h5, h6⟩
      refine ⟨L ++ requestLog q.stamp q.objs, h0, ?_, by simp, by simp, h4, g1, g2, (writeRecord_took ω e.file hq).2 h7⟩
      rw [hp] at h1
      change _ = d ++ historyLog (h.take (received h e))
      rw [← h1]
      simp [historyLog]
    | flush =>
      refine ⟨L, h0, h1, h2, h3, h4, ?_, fun hf => ?_, (flush_len ω e.file).trans h7⟩
      · rw [flush_bytes]; exact h5
      · rw [flush_bytes]; exact h6 (flush_unfailed hf)

theorem unhurried_inv {ω : Nat → Nat} {h : List Req} {e : Engine} (hr : RunsUnhurried ω h e) :
    ∃ L, e.todo.length ≤ h.length ∧ L ++ historyLog e.pending = historyLog (h.take (received h e)) ∧ e.pending.length ≤ 1 ∧
      (∀ q ∈ e.pending, isLogged q.objs = true) ∧ h.drop (received h e) = e.todo ∧ e.file.disk ++ e.file.buf <+: L ∧
      (e.file.failed = false → e.file.disk ++ e.file.buf = L) ∧ e.file.buf.length ≤ bufSize := unhurried_inv_on (d := []) (st := State.empty) hr

/-- A history the server survives is survived up to any point. -/
theorem serve_take {st st' : State} {qs : List (Env × List Resp)} {rs : List Resp} (h : serve st qs = .ok (st', rs)) (n : Nat) :
    ∃ s rs', serve st (qs.take n) = .ok (s, rs') ∧ rs' = rs.take n := by
  induction qs generalizing st rs n with
  | nil => cases h; exact ⟨st', [], by simp [serve], by simp⟩
  | cons q qs ih =>
    cases n with
    | zero => exact ⟨st, [], rfl, rfl⟩
    | succ n =>
      obtain ⟨env, objs⟩ := q
      simp only [serve] at h
      split at h <;> try cases h
      rename_i st1 r he
      split at h <;> try cases h
      rename_i rs' hs'
      obtain ⟨s, rs'', g1, g2⟩ := ih hs' n
      exact ⟨s, r :: rs'', by simp only [List.take_succ_cons, serve, he, g1], by simp [g2]⟩

/-- The file when the process is killed, or when it ends with a flush. -/
def EndsWith (ω : Nat → Nat) (e : Engine) (p : PFile) : Prop := p = e.file ∨ p = e.file.flush ω

/-- The full claim C59: whenever the process ends, a new server on its log holds what the old one held after some of its first requests. -/
def CrashSafe : Prop := ∀ (ω : Nat → Nat) (h : List Req) (e : Engine) (p : PFile) (st : State) (rs : List Resp), (∀ q ∈ h, q.Occurs) →
  Runs ω [] h e → EndsWith ω e p → serve State.empty (served h) = .ok (st, rs) → ∀ envs : Nat → Env, (∀ i, (envs i).ord.Fair) →
    ∃ n dbs s rs' a, n ≤ received h e ∧ fromFile noDBs envs p.disk = .ok dbs ∧ serve State.empty (served (h.take n)) = .ok (s, rs') ∧ Abs s a ∧
      Abs (dbs 1) a

/-- C59: the process ends at any moment `e` of a run and a new one is started on what is then in the file. The new server holds exactly
what the old one held after its first `n` requests, and `n` counts every request whose record had reached the file. What has not reached
the file is at most the last record and one buffer of 4096 bytes, unless writing to the disk has failed. The full claim is `CrashSafe`; the
hypotheses exclude what makes it false: LTRIM (`C33_false_ltrim`), SPOP (`C33_false_spop`), strings that are not UTF-8
(`C33_false_binary`) and writers overtaking each other (`C34_false`). For a request that kills the server see `C33_crash_loop`. -/
theorem C59_crash_partial {ω : Nat → Nat} {h : List Req} {e : Engine} {p : PFile} {st : State} {rs : List Resp} (hr : RunsUnhurried ω h e)
    (he : EndsWith ω e p) (ho : ∀ q ∈ h, q.Occurs ∧ ¬ q.Is b!"ltrim" ∧ ¬ q.Is b!"spop" ∧ ∀ o ∈ q.objs, TextObj o)
    (hs : serve State.empty (served h) = .ok (st, rs)) {envs : Nat → Env} (hf : ∀ i, (envs i).ord.Fair) :
    ∃ n dbs s a, n ≤ received h e ∧ fromFile noDBs envs p.disk = .ok dbs ∧
      serve State.empty (served (h.take n)) = .ok (s, rs.take n) ∧ Abs s a ∧ Abs (dbs 1) a ∧ (∀ i, i ≠ 1 → dbs i = State.empty) ∧
      (∀ m, m ≤ received h e → (historyLog (h.take m)).length ≤ p.disk.length → m ≤ n) ∧
      (e.file.failed = false →
        (historyLog (h.take (received h e))).length ≤ p.disk.length + 4096 + (historyLog e.pending).length ∧ e.pending.length ≤ 1) := by
  obtain ⟨L, h0, h1, h2, h3, h4, h5, h6, h7⟩ := unhurried_inv hr
  have hb : p.disk ++ p.buf = e.file.disk ++ e.file.buf ∧ p.buf.length ≤ e.file.buf.length := by
    rcases he with rfl | rfl
    · exact ⟨rfl, le_refl _⟩
    · exact ⟨flush_bytes ω _, flush_len ω _⟩
  rw [← hb.1] at h5 h6
  have hrec : received h e ≤ h.length := Nat.sub_le _ _
  have hpre : p.disk <+: historyLog (h.take (received h e)) :=
    (List.prefix_append _ _).trans (h5.trans (h1 ▸ List.prefix_append _ _))
  obtain ⟨n, hk⟩ := kept_exists (h.take (received h e)) p.disk.length
  have hn : n ≤ received h e := by have := hk.1; simp at this; omega
  have htt : ∀ m, m ≤ received h e → (h.take (received h e)).take m = h.take m := fun m hm => by rw [List.take_take, Nat.min_eq_left hm]
  have hrecs := parse_history_cut (h := h.take (received h e)) (fun q hq => by
    have := ho q (List.mem_of_mem_take hq); exact ⟨this.1, this.2.2.2⟩) hk
  rw [← List.prefix_iff_eq_take.1 hpre, htt n hn] at hrecs
  obtain ⟨s, rs', g1, g2⟩ := serve_take hs n
  have e1 : (served h).take n = served (h.take n) := by simp [served, List.map_take]
  rw [e1] at g1
  obtain ⟨dbs, a, k, b1, b2, b3, b4⟩ := replay_abs (h := h.take n) (fun q hq => by
    have := ho q (List.mem_of_mem_take hq); exact ⟨this.1, this.2.1, this.2.2.1⟩) abs_empty g1 (dbs := noDBs) abs_empty hf []
  rw [List.append_nil] at b1
  refine ⟨n, dbs, s, a, hn, ?_, g2 ▸ g1, b2, b3, b4, fun m hm hl => ?_, fun hfl => ⟨?_, h2⟩⟩
  · rw [fromFile, hrecs]; exact b1
  · refine hk.2.2 m (by simp; omega) ?_
    rw [htt m hm]; exact hl
  · have := h6 hfl
    rw [← h1, ← this]
    have := hb.2
    simp only [List.length_append, bufSize] at h7 ⊢
    omega

/-- The hypotheses of `C59_crash_partial` are met by a run that ends between executing a request and writing its record. -/
example : ∃ e, RunsUnhurried (fun _ => 100000) [set1, set2] e ∧ e.pending = [set2] ∧ e.replies.length = 2 ∧ EndsWith (fun _ => 100000) e e.file := by
  refine ⟨_, .tail (.tail (.tail (.tail (.tail .refl ⟨.receive rfl rfl, .inr rfl⟩) ⟨.execute rfl rfl, .inl rfl⟩)
    ⟨.write (before := []) (after := []) rfl, .inl rfl⟩) ⟨.receive rfl rfl, .inr rfl⟩) ⟨.execute rfl rfl, .inl rfl⟩, rfl, rfl, .inl rfl⟩
example : ∀ q ∈ [set1, set2], q.Occurs ∧ ¬ q.Is b!"ltrim" ∧ ¬ q.Is b!"spop" ∧ ∀ o ∈ q.objs, TextObj o := by
  simp only [List.forall_mem_cons, List.not_mem_nil, false_imp_iff, implies_true, and_true]
  exact ⟨set1_ok, set2_ok⟩

def trimmed : List Req := [sent [b!"rpush", b!"l", b!"a", b!"b"], sent [b!"ltrim", b!"l", b!"0", b!"0"], sent [b!"rpush", b!"l", b!"c"]]

/-- C59 is false: with LTRIM between other requests the new server holds a list the old one never held. -/
theorem C59_false : ¬ CrashSafe := by
  intro H
  have occ : ∀ q ∈ trimmed, q.Occurs := by
    simp only [trimmed, List.forall_mem_cons, List.not_mem_nil, false_imp_iff, implies_true, and_true]
    exact ⟨sent_occurs, sent_occurs, sent_occurs⟩
  obtain ⟨e, h1, h2, h3, h4⟩ := C34_all_orders (ω := fun _ => 100000) (fun _ => Nat.le_refl _) (by decide) [] (h := trimmed) (h' := logged trimmed)
    rfl (.refl _) (by
      simp only [trimmed, List.forall_mem_cons, List.not_mem_nil, false_imp_iff, implies_true, and_true]
      exact ⟨by decide, by decide, by decide⟩)
  obtain ⟨n, dbs, s, rs', a, g1, g2, g3, g4, g5⟩ := H _ _ e _ _ _ occ h1 (.inr rfl) rfl (fun _ => env0) (fun _ => env0_fair)
  rw [h4, List.nil_append] at g2
  obtain ⟨dbs', a', b1, b2, b3, -⟩ := C33_rebuilds_partial (logged trimmed) _ _ (by
      change ∀ q ∈ [sent [b!"rpush", b!"l", b!"a", b!"b"], sent [b!"rpush", b!"l", b!"c"]], _
      simp only [List.forall_mem_cons, List.not_mem_nil, false_imp_iff, implies_true, and_true]
      exact ⟨⟨sent_occurs, sent_is (by decide), sent_is (by decide), sent_text⟩, ⟨sent_occurs, sent_is (by decide), sent_is (by decide), sent_text⟩⟩)
    rfl (fun _ => env0) (fun _ => env0_fair)
  rw [b1] at g2; cases g2
  cases abs_unique b3 g5
  have hn : n ≤ 3 := g1.trans (Nat.sub_le _ _)
  have key : ∀ {r : Int} {t : State}, handle env0 s (req [b!"llen", b!"l"]) = .ok (t, .int r) → r = 3 := by
    intro r t ht
    apply Classical.byContradiction; intro hne
    exact not_same_int hne (differ g4 b2 [b!"l"] b!"llen" (by decide) ht rfl)
  interval_cases n <;> cases g3
  · exact absurd (key (r := 0) rfl) (by decide)
  · exact absurd (key (r := 2) rfl) (by decide)
  · exact absurd (key (r := 1) rfl) (by decide)
  · exact absurd (key (r := 2) rfl) (by decide)

end Verif.Props
