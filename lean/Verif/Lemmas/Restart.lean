import Verif.Spec.Restart
import Verif.Lemmas.Replay

/-! What a log file of arbitrary requests contains. -/

namespace Verif

open Spec

theorem utf8Encode_ascii {d : Nat} (hd : Scalar d) {c : UInt8} (hc : c ∈ utf8Encode d) (ha : c.toNat < 128) : utf8Encode d = [c] := by
  obtain ⟨h1, h2⟩ := hd
  unfold utf8Encode at hc ⊢
  split
  · rename_i h
    rw [if_pos h] at hc
    simp only [List.mem_singleton] at hc
    rw [hc]
  · rename_i h
    rw [if_neg h] at hc
    exfalso
    split at hc
    · simp only [List.mem_cons, List.not_mem_nil, or_false] at hc
      rcases hc with rfl | rfl <;> simp only [UInt8.toNat_ofNat'] at ha <;> omega
    · split at hc
      · simp only [List.mem_cons, List.not_mem_nil, or_false] at hc
        rcases hc with rfl | rfl | rfl <;> simp only [UInt8.toNat_ofNat'] at ha <;> omega
      · simp only [List.mem_cons, List.not_mem_nil, or_false] at hc
        rcases hc with rfl | rfl | rfl | rfl <;> simp only [UInt8.toNat_ofNat'] at ha <;> omega

/-- Text can be cut at an ASCII character. -/
theorem utf8_cut {s t : Bytes} {c : UInt8} (hc : c.toNat < 128) (h : ValidUTF8 (s ++ c :: t)) : ValidUTF8 s ∧ ValidUTF8 t := by
  obtain ⟨cs, h1, h2⟩ := h
  induction cs generalizing s with
  | nil => simp at h2
  | cons d cs ih =>
    have hd := h1 d (by simp)
    have h1' : ∀ c ∈ cs, Scalar c := fun c hc => h1 c (by simp [hc])
    rw [List.flatMap_cons, List.append_eq_append_iff] at h2
    rcases h2 with ⟨a, h3, h4⟩ | ⟨a, h3, h4⟩
    · -- the encoding of `d` goes on after `s`
      cases a with
      | nil =>
        rw [List.append_nil] at h3
        obtain ⟨-, g2⟩ := ih h1' (s := []) (by simpa using h4)
        exact ⟨⟨[d], by simpa using hd, by simp [h3]⟩, g2⟩
      | cons x a =>
        simp only [List.cons_append, List.cons.injEq] at h4
        obtain ⟨rfl, h4⟩ := h4
        have := utf8Encode_ascii hd (c := c) (by rw [h3]; simp) hc
        rw [h3] at this
        have hl := congrArg List.length this
        simp only [List.length_append, List.length_cons, List.length_nil] at hl
        have e1 : s = [] := List.eq_nil_of_length_eq_zero (by omega)
        have e2 : a = [] := List.eq_nil_of_length_eq_zero (by omega)
        subst e1; subst e2
        exact ⟨utf8_nil, cs, h1', by simpa using h4⟩
    · obtain ⟨g1, g2⟩ := ih h1' h4.symm
      refine ⟨?_, g2⟩
      rw [h3]
      exact utf8_append ⟨[d], by simpa using hd, by simp⟩ g1

mutual
theorem encode_ends : (o : Resp) → ∃ s, o.encode = s ++ [10]
  | .simple d => ⟨43 :: (d ++ [13]), by simp [Resp.encode, Resp.crlf]⟩
  | .bulk d => ⟨36 :: (fmtNat d.length ++ [13, 10] ++ d ++ [13]), by simp [Resp.encode, Resp.crlf]⟩
  | .nullBulk => ⟨b!"$-1\r", by decide⟩
  | .error d => ⟨45 :: (d ++ [13]), by simp [Resp.encode, Resp.crlf]⟩
  | .int n => ⟨58 :: (fmtInt n ++ [13]), by simp [Resp.encode, Resp.crlf]⟩
  | .nullArray => ⟨b!"*-1\r", by decide⟩
  | .array items => by
    obtain ⟨s, hs⟩ := encodeList_ends items
    exact ⟨42 :: (fmtNat items.length ++ [13] ++ s), by simp [Resp.encode, Resp.crlf, ← hs]⟩

theorem encodeList_ends : (os : List Resp) → ∃ s, 10 :: Resp.encodeList os = s ++ [10]
  | [] => ⟨[], rfl⟩
  | o :: os => by
    obtain ⟨s, hs⟩ := encodeList_ends os
    obtain ⟨t, ht⟩ := encode_ends o
    refine ⟨10 :: (t ++ s), ?_⟩
    rw [Resp.encodeList, ht]
    simp [← hs]
end

mutual
theorem encode_text : (o : Resp) → ValidUTF8 o.encode → TextObj o
  | .simple d, h => by
    obtain ⟨-, h⟩ := utf8_cut (s := []) (c := 43) (by decide) (by simpa [Resp.encode] using h)
    exact .simple (utf8_cut (c := 13) (by decide) h).1
  | .bulk d, h => by
    obtain ⟨-, h⟩ := utf8_cut (s := 36 :: fmtNat d.length) (c := 13) (t := 10 :: (d ++ [13, 10])) (by decide)
      (by simpa [Resp.encode, Resp.crlf] using h)
    obtain ⟨-, h⟩ := utf8_cut (s := []) (c := 10) (by decide) h
    exact .bulk (utf8_cut (c := 13) (by decide) h).1
  | .nullBulk, _ => .nullBulk
  | .error d, h => by
    obtain ⟨-, h⟩ := utf8_cut (s := []) (c := 45) (by decide) (by simpa [Resp.encode] using h)
    exact .error (utf8_cut (c := 13) (by decide) h).1
  | .int n, _ => .int
  | .array items, h => by
    obtain ⟨-, h⟩ := utf8_cut (s := 42 :: (fmtNat items.length ++ [13])) (c := 10) (t := Resp.encodeList items) (by decide)
      (by simpa [Resp.encode, Resp.crlf] using h)
    exact .array (encodeList_text items h)
  | .nullArray, _ => .nullArray

theorem encodeList_text : (os : List Resp) → ValidUTF8 (Resp.encodeList os) → ∀ o ∈ os, TextObj o
  | [], _ => by simp
  | o :: os, h => by
    obtain ⟨s, hs⟩ := encode_ends o
    rw [Resp.encodeList, hs, List.append_assoc] at h
    obtain ⟨h1, h2⟩ := utf8_cut (c := 10) (by decide) h
    have g1 := encode_text o (by rw [hs]; exact utf8_append h1 (utf8_ascii (by decide)))
    have g2 := encodeList_text os h2
    intro x hx
    rcases List.mem_cons.1 hx with e | hx
    · rw [e]; exact g1
    · exact g2 x hx
end

theorem calls_name {objs os os' : List Resp} {n n' : Bytes} (h : Calls objs n os) (h' : Calls objs n' os') : n = n' := by
  obtain ⟨m, h1, rfl⟩ := newCommand_call h
  obtain ⟨o, t, rfl, ht, hf⟩ := h
  obtain ⟨o', t', e, ht', hf'⟩ := h'
  cases e
  have e2 : t = t' := Option.some.inj ((text_of ht).symm.trans (text_of ht'))
  subst e2
  rw [← folds_toLower hf, ← folds_toLower hf']

theorem means_named {objs : List Resp} {c : Command} (h : Means objs c) :
    ∃ n os, Calls objs n os ∧ (c.isModify = true ↔ n ∈ loggedNames) := by
  cases c
  case incr k d =>
    rcases h with ⟨os, h, -⟩ | ⟨-, ⟨os, h, -⟩ | ⟨o, os, h, -⟩⟩ <;> exact ⟨_, _, h, by simp only [Command.isModify]; decide⟩
  case decr k d =>
    rcases h with ⟨os, h, -⟩ | ⟨-, ⟨os, h, -⟩ | ⟨o, os, h, -⟩⟩ <;> exact ⟨_, _, h, by simp only [Command.isModify]; decide⟩
  case spop k n =>
    cases n
    · obtain ⟨os, h, -⟩ := h
      exact ⟨_, _, h, by simp only [Command.isModify]; decide⟩
    · obtain ⟨_, ⟨os, h, -⟩, -⟩ := h
      exact ⟨_, _, h, by simp only [Command.isModify]; decide⟩
  case srandmember k n =>
    cases n
    · obtain ⟨os, h, -⟩ := h
      exact ⟨_, _, h, by simp only [Command.isModify]; decide⟩
    · obtain ⟨_, ⟨os, h, -⟩, -⟩ := h
      exact ⟨_, _, h, by simp only [Command.isModify]; decide⟩
  all_goals
    simp only [Means] at h
    first
    | obtain ⟨os, h, -⟩ := h
      exact ⟨_, _, h, by simp only [Command.isModify]; decide⟩
    | obtain ⟨-, os, h, -⟩ := h
      exact ⟨_, _, h, by simp only [Command.isModify]; decide⟩
    | obtain ⟨_, ⟨os, h, -⟩, -⟩ := h
      exact ⟨_, _, h, by simp only [Command.isModify]; decide⟩
    | obtain ⟨_, _, ⟨os, h, -⟩, -⟩ := h
      exact ⟨_, _, h, by simp only [Command.isModify]; decide⟩

/-- Which requests are logged, by name. -/
theorem logged_named (q : Req) : isLogged q.objs = true ↔ (∃ c, Means q.objs c) ∧ ∃ n ∈ loggedNames, q.Is n := by
  constructor
  · intro h
    obtain ⟨c, hc, hm⟩ := logged_command h
    have hc := means_iff.1 hc
    obtain ⟨n, os, h1, h2⟩ := means_named hc
    exact ⟨⟨c, hc⟩, n, h2.1 hm, os, h1⟩
  · rintro ⟨⟨c, hc⟩, n, hn, os, hq⟩
    rw [logged_iff (means_iff.2 hc)]
    obtain ⟨n', os', h1, h2⟩ := means_named hc
    exact h2.2 (calls_name hq h1 ▸ hn)

theorem recorded_iff (q : Req) : q.Recorded ↔ isLogged q.objs = true ∧ ∀ o ∈ q.objs, TextObj o := by
  rw [logged_named, and_assoc]; rfl

/-- A request that leaves no record adds nothing to the file. -/
theorem unrecorded_log {q : Req} (h : ¬ q.Recorded) : requestLog q.stamp q.objs = [] := by
  rw [requestLog]
  split
  · rename_i hl
    rw [logBytes]
    cases hp : packLog (newLog q.stamp ((q.objs.head?.bind text).getD []) 1 q.objs) with
    | none => rfl
    | some b =>
      obtain ⟨-, -, -, -, -, hr⟩ := packLog_some.1 ⟨b, hp⟩
      have : TextObj (.array q.objs) := encode_text _ hr
      cases this with | array ht => exact absurd ((recorded_iff q).2 ⟨hl, ht⟩) h
  · rfl

theorem recorded_log (h : List Req) : historyLog (recorded h) = historyLog h := by
  induction h with
  | nil => rfl
  | cons q h ih =>
    unfold recorded at ih ⊢
    have e : ∀ h, historyLog (q :: h) = requestLog q.stamp q.objs ++ historyLog h := fun h => by rw [historyLog, List.flatMap_cons]; rfl
    by_cases hq : q.Recorded
    · rw [List.filter_cons, if_pos (by simpa using hq), e, e, ih]
    · rw [List.filter_cons, if_neg (by simpa using hq), e, unrecorded_log hq, ih, List.nil_append]

theorem recorded_mem {h : List Req} {q : Req} : q ∈ recorded h ↔ q ∈ h ∧ q.Recorded := by simp [recorded]

theorem recorded_records {h : List Req} (hr : ∀ q ∈ h, q.Recorded) : historyRecords h = h.map reqLog := by
  rw [historyRecords, List.filter_eq_self.2 fun q hq => ((recorded_iff q).1 (hr q hq)).1]

theorem again_cons (envs : Nat → Env) (q : Req) (h : List Req) : again envs (q :: h) = (envs 0, q.objs) :: again (fun i => envs (i + 1)) h := by
  simp [again, List.mapIdx_cons]

/-- Replaying records is executing their requests. -/
theorem build_again {h : List Req} (ho : ∀ q ∈ h, q.Occurs ∧ q.Recorded) (dbs : DBs) (envs : Nat → Env) :
    buildFromLog dbs envs (h.map reqLog) =
      match serve (dbs 1) (again envs h) with
      | .ok (st, _) => .ok fun i => if i = 1 then st else dbs i
      | .panic => .panic
      | .diverge => .diverge := by
  induction h generalizing dbs envs with
  | nil =>
    simp only [List.map_nil, buildFromLog, again, List.mapIdx_nil, serve]
    congr 1
    funext i
    split
    · rename_i e; rw [e]
    · rfl
  | cons q h ih =>
    have hq := ho q (by simp)
    obtain ⟨c, hc, -⟩ := logged_command ((recorded_iff q).1 hq.2).1
    rw [List.map_cons, build_cons hq.1.wire hc, again_cons, serve]
    simp only [handle, hc]
    have ih := ih fun q hq => ho q (by simp [hq])
    cases he : execute (envs 0) (dbs 1) c with
    | panic => rfl
    | diverge => rfl
    | ok p =>
      obtain ⟨st1, v⟩ := p
      simp only [ih]
      have e : ∀ st : State, (fun i => if i = 1 then st else if i = 1 then st1 else dbs i) = fun i => if i = 1 then st else dbs i := by
        intro st; funext i; split <;> rfl
      cases v <;> simp only [if_true, e] <;> cases serve st1 (again (fun i => envs (i + 1)) h) <;> rfl

theorem build_started {h : List Req} (ho : ∀ q ∈ h, q.Occurs ∧ q.Recorded) (envs : Nat → Env) :
    buildFromLog noDBs envs (h.map reqLog) = filledBy (serve State.empty (again envs h)) := by
  rw [build_again ho, show noDBs 1 = State.empty from rfl]
  unfold filledBy noDBs
  cases serve State.empty (again envs h) <;> rfl

/-- A server started on the log of arbitrary requests. -/
theorem fromFile_recorded {h : List Req} (ho : ∀ q ∈ h, q.Occurs) (envs : Nat → Env) :
    fromFile noDBs envs (historyLog h) = filledBy (serve State.empty (again envs (recorded h))) := by
  rw [← recorded_log, fromFile_history (h := recorded h), recorded_records, build_started]
  · exact fun q hq => ⟨ho q (recorded_mem.1 hq).1, (recorded_mem.1 hq).2⟩
  · exact fun q hq => (recorded_mem.1 hq).2
  · exact fun q hq => ⟨ho q (recorded_mem.1 hq).1, (recorded_mem.1 hq).2.2.2⟩

end Verif
