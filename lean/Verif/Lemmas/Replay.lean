import Verif.Spec.History
import Verif.Lemmas.Log
import Verif.Lemmas.Determined
import Verif.Lemmas.Frame
import Verif.Lemmas.Resp2

/-! Replaying a log. -/

namespace Verif

open Spec

theorem utf8_nil : ValidUTF8 [] := ⟨[], by simp, rfl⟩

theorem utf8_append {s t : Bytes} (h : ValidUTF8 s) (h' : ValidUTF8 t) : ValidUTF8 (s ++ t) := by
  obtain ⟨cs, h1, rfl⟩ := h
  obtain ⟨ds, h2, rfl⟩ := h'
  refine ⟨cs ++ ds, ?_, by simp⟩
  intro c hc
  rcases List.mem_append.1 hc with h | h
  · exact h1 c h
  · exact h2 c h

theorem utf8_ascii {s : Bytes} (h : ∀ c ∈ s, c.toNat < 128) : ValidUTF8 s := by
  induction s with
  | nil => exact utf8_nil
  | cons c s ih =>
    have hc := h c (by simp)
    refine Proto.utf8_cons (c := c.toNat) (t := s) ⟨by omega, by omega⟩ ?_ (ih fun c hc => h c (by simp [hc]))
    rw [utf8Encode, if_pos hc]; simp

theorem utf8_cons_ascii {c : UInt8} {s : Bytes} (hc : c.toNat < 128) (h : ValidUTF8 s) : ValidUTF8 (c :: s) :=
  utf8_append (s := [c]) (utf8_ascii (by simpa using hc)) h

theorem utf8_fmtInt (n : Int) : ValidUTF8 (fmtInt n) := utf8_ascii fun c hc => by
  rcases fmtInt_chars n c hc with rfl | h
  · decide
  · unfold IsDigit at h; omega

theorem utf8_fmtNat (n : Nat) : ValidUTF8 (fmtNat n) := utf8_ascii fun c hc => by
  have := (fmtNat_spec n).2.1 c hc
  unfold IsDigit at this; omega

theorem utf8_crlf : ValidUTF8 Resp.crlf := utf8_ascii (by decide)

mutual
theorem utf8_encode : ∀ (o : Resp), TextObj o → ValidUTF8 o.encode
  | .simple d, h => by cases h with | simple h => exact utf8_cons_ascii (by decide) (utf8_append h utf8_crlf)
  | .bulk d, h => by
    cases h with
    | bulk h => exact utf8_cons_ascii (by decide) (utf8_append (utf8_append (utf8_append (utf8_fmtNat _) utf8_crlf) h) utf8_crlf)
  | .nullBulk, _ => utf8_ascii (by decide)
  | .error d, h => by cases h with | error h => exact utf8_cons_ascii (by decide) (utf8_append h utf8_crlf)
  | .int n, _ => utf8_cons_ascii (by decide) (utf8_append (utf8_fmtInt n) utf8_crlf)
  | .array items, h => by
    cases h with
    | array h => exact utf8_cons_ascii (by decide) (utf8_append (utf8_append (utf8_fmtNat _) utf8_crlf) (utf8_encodeList items h))
  | .nullArray, _ => utf8_ascii (by decide)
theorem utf8_encodeList : ∀ (os : List Resp), (∀ o ∈ os, TextObj o) → ValidUTF8 (Resp.encodeList os)
  | [], _ => utf8_nil
  | o :: os, h => utf8_append (utf8_encode o (h o (by simp))) (utf8_encodeList os fun o ho => h o (by simp [ho]))
end

theorem convertArguments_encode {os : List Resp} (h : ∀ o ∈ os, Clean o ∧ Sized o) : convertArguments (os.map Resp.encode) = .ok os := by
  induction os with
  | nil => rfl
  | cons o os ih =>
    have := parse_encode o (h o (by simp)).1 (h o (by simp)).2 []
    rw [List.append_nil] at this
    rw [List.map_cons, convertArguments, this]
    simp [ih fun o ho => h o (by simp [ho])]

theorem wire_clean {objs : List Resp} (h : ∃ s r, parse s = .ok (.array objs) r) : ∀ o ∈ objs, Clean o ∧ Sized o := by
  obtain ⟨s, r, h⟩ := h
  obtain ⟨hc, hs⟩ := parse_ok_clean h
  cases hc with
  | array hc => cases hs with
    | array _ hs => exact fun o ho => ⟨hc o ho, hs o ho⟩

/-- The record of a logged request. -/
def reqLog (q : Req) : VLog := newLog q.stamp ((q.objs.head?.bind text).getD []) 1 q.objs

theorem reqLog_fits {q : Req} (h : q.Occurs) : Fits (reqLog q) := ⟨h.time, by show (-2 ^ 31 : Int) ≤ 1; decide, by show (1 : Int) < 2 ^ 31; decide⟩

theorem text_valid {o : Resp} {n : Bytes} (h : TextObj o) (ht : text o = some n) : ValidUTF8 n := by
  cases h <;> simp [text] at ht
  · subst ht; assumption
  · subst ht; assumption
  · subst ht; exact utf8_nil

theorem requestCommand_reqLog {q : Req} {c : Command} (h : requestCommand q.objs = .ok c) :
    newCommand (reqLog q).name q.objs.tail = .ok c := by
  unfold requestCommand at h
  split at h
  · simp at h
  · rename_i o args e
    split at h
    · simp at h
    · rename_i n ht
      simpa [reqLog, newLog, e, ht] using h

/-- A logged request with texts in UTF-8 produces exactly one packed record. -/
theorem logged_packed {q : Req} (h : q.Occurs) (ht : ∀ o ∈ q.objs, TextObj o) (hl : isLogged q.objs = true) :
    packLog (reqLog q) = some (requestLog q.stamp q.objs) ∧ Fits (reqLog q) ∧ (requestLog q.stamp q.objs).length < 2 ^ 32 + 4 := by
  refine ⟨?_, reqLog_fits h, h.small⟩
  have : ∃ b, packLog (reqLog q) = some b := by
    refine packLog_some.2 ⟨?_, h.id, h.host, ?_, ?_, utf8_encode _ (.array ht)⟩
    · intro e
      have : (1 : Int) = 0 := congrArg VLog.index e
      omega
    · show ValidUTF8 ((q.objs.head?.bind text).getD [])
      cases hq : q.objs with
      | nil => exact utf8_nil
      | cons o os =>
        cases hx : text o with
        | none => simp [hx]; exact utf8_nil
        | some n => simpa [hx] using text_valid (ht o (by simp [hq])) hx
    · intro x hx
      simp only [reqLog, newLog, List.mem_map] at hx
      obtain ⟨o, ho, rfl⟩ := hx
      exact utf8_encode o (ht o (List.mem_of_mem_tail ho))
  obtain ⟨b, hb⟩ := this
  rw [hb, requestLog, if_pos hl, logBytes]
  rw [reqLog] at hb
  rw [hb]; rfl

/-- The records of a history. -/
def historyRecords (h : List Req) : List VLog := (h.filter fun q => isLogged q.objs).map reqLog

theorem historyLog_packed {h : List Req} (ho : ∀ q ∈ h, q.Occurs ∧ ∀ o ∈ q.objs, TextObj o) :
    ∃ bs, Packed (historyRecords h) bs ∧ historyLog h = bs.flatten := by
  induction h with
  | nil => exact ⟨[], .nil, rfl⟩
  | cons q h ih =>
    obtain ⟨bs, h1, h2⟩ := ih fun q hq => ho q (by simp [hq])
    have hq := ho q (by simp)
    cases hl : isLogged q.objs
    · refine ⟨bs, ?_, ?_⟩
      · simpa [historyRecords, List.filter_cons, hl] using h1
      · have : requestLog q.stamp q.objs = [] := by simp [requestLog, hl]
        rw [historyLog, List.flatMap_cons, this, List.nil_append, ← h2]; rfl
    · refine ⟨requestLog q.stamp q.objs :: bs, ?_, ?_⟩
      · simp only [historyRecords, List.filter_cons, hl, if_true, List.map_cons]
        exact .cons (logged_packed hq.1 hq.2 hl) h1
      · rw [historyLog, List.flatMap_cons, List.flatten_cons, ← h2]; rfl

theorem fromFile_history {h : List Req} (ho : ∀ q ∈ h, q.Occurs ∧ ∀ o ∈ q.objs, TextObj o) (dbs : DBs) (envs : Nat → Env) :
    fromFile dbs envs (historyLog h) = buildFromLog dbs envs (historyRecords h) := by
  obtain ⟨bs, h1, h2⟩ := historyLog_packed ho
  have := packed_parse h1 []
  rw [List.append_nil, parse_short (s := []) (by simp)] at this
  rw [fromFile, h2, this]; simp

/-- Replaying one record. -/
theorem build_cons {q : Req} (hw : ∃ s r, parse s = .ok (.array q.objs) r) {c : Command} (hc : requestCommand q.objs = .ok c) (dbs : DBs)
    (envs : Nat → Env) (vs : List VLog) :
    buildFromLog dbs envs (reqLog q :: vs) =
      match execute (envs 0) (dbs 1) c with
      | .ok (st', _) => buildFromLog (fun j => if j = 1 then st' else dbs j) (fun i => envs (i + 1)) vs
      | .panic => .panic
      | .diverge => .diverge := by
  have h1 : convertArguments (reqLog q).args = .ok q.objs.tail :=
    convertArguments_encode fun o ho => wire_clean hw o (List.mem_of_mem_tail ho)
  rw [buildFromLog, h1]
  simp only [Outcome.bind_ok, requestCommand_reqLog hc]
  rw [DBs.run, show (reqLog q).index = 1 from rfl]
  cases execute (envs 0) (dbs 1) c <;> rfl

theorem not_named {q : Req} {c : Command} (hm : Means q.objs c) (h1 : ¬ q.Is b!"ltrim") (h2 : ¬ q.Is b!"spop") :
    (∀ k l r, c ≠ .ltrim k l r) ∧ (∀ k n, c ≠ .spop k n) := by
  constructor
  · rintro k l r rfl
    obtain ⟨_, _, ⟨os, h, _⟩, _⟩ := hm
    exact h1 ⟨os, h⟩
  · rintro k n rfl
    cases n with
    | none => obtain ⟨os, h, _⟩ := hm; exact h2 ⟨os, h⟩
    | some n => obtain ⟨_, ⟨os, h, _⟩, _⟩ := hm; exact h2 ⟨os, h⟩

theorem modify_determined {c : Command} (h : c.isModify = true) (hs : ∀ k n, c ≠ .spop k n) : Determined c := by
  cases c <;> simp [Command.isModify] at h <;> simp only [Determined]
  rename_i k n
  exact hs k n rfl

theorem logged_iff {objs : List Resp} {c : Command} (h : requestCommand objs = .ok c) : isLogged objs = c.isModify := by
  simp [isLogged, h]

theorem logged_command {objs : List Resp} (h : isLogged objs = true) : ∃ c, requestCommand objs = .ok c ∧ c.isModify = true := by
  unfold isLogged at h
  split at h
  · exact ⟨_, by assumption, h⟩
  · cases h

/-- The result of replaying a history against the abstract machine, generalised to arbitrary starting contents. -/
theorem replay_abs {h : List Req} (ho : ∀ q ∈ h, q.Occurs ∧ ¬ q.Is b!"ltrim" ∧ ¬ q.Is b!"spop") {st st' : State} {a : DB} {rs : List Resp}
    (ha : Abs st a) (hs : serve st (served h) = .ok (st', rs)) {dbs : DBs} (hd : Abs (dbs 1) a) {envs : Nat → Env}
    (hf : ∀ i, (envs i).ord.Fair) (tail : List VLog) :
    ∃ dbs' a' n, buildFromLog dbs envs (historyRecords h ++ tail) = buildFromLog dbs' (fun i => envs (i + n)) tail ∧ Abs st' a' ∧
      Abs (dbs' 1) a' ∧ ∀ i, i ≠ 1 → dbs' i = dbs i := by
  induction h generalizing st a rs dbs envs with
  | nil =>
    simp only [served, List.map_nil, serve, Outcome.ok.injEq, Prod.mk.injEq] at hs
    obtain ⟨rfl, -⟩ := hs
    exact ⟨dbs, a, 0, rfl, ha, hd, fun _ _ => rfl⟩
  | cons q h ih =>
    have hq := ho q (by simp)
    have ho' : ∀ q ∈ h, q.Occurs ∧ ¬ q.Is b!"ltrim" ∧ ¬ q.Is b!"spop" := fun q hq => ho q (by simp [hq])
    simp only [served, List.map_cons, serve] at hs
    split at hs
    · rename_i st1 r hh
      split at hs
      · rename_i st2 rs2 hh2
        simp only [Outcome.ok.injEq, Prod.mk.injEq] at hs
        obtain ⟨rfl, -⟩ := hs
        cases hc : requestCommand q.objs with
        | error e =>
          have hl : isLogged q.objs = false := by simp [isLogged, hc]
          have e1 : st1 = st := by
            simp only [handle, hc, Outcome.ok.injEq, Prod.mk.injEq] at hh
            exact hh.1.symm
          subst e1
          obtain ⟨dbs', a', n, h1, h2⟩ := ih ho' ha hh2 hd hf
          refine ⟨dbs', a', n, ?_, h2⟩
          simp only [historyRecords, List.filter_cons, hl, Bool.false_eq_true, if_false]
          exact h1
        | ok c =>
          have hm := command_means hc
          have hv := requestCommand_valid hc
          obtain ⟨hn1, hn2⟩ := not_named hm hq.2.1 hq.2.2
          obtain ⟨out, hst, hsim⟩ := exec_refines ha hq.1.fair hv
          have hex : ∃ v, execute q.env st c = .ok (st1, v) := by
            simp only [handle, hc] at hh
            split at hh <;> simp only [Outcome.ok.injEq, Prod.mk.injEq, reduceCtorEq] at hh
            · obtain ⟨rfl, -⟩ := hh; exact ⟨_, by assumption⟩
            · obtain ⟨rfl, -⟩ := hh; exact ⟨_, by assumption⟩
          obtain ⟨v, hex⟩ := hex
          rw [hex] at hsim
          rcases out with _ | ⟨a1, v1⟩
          · exact hsim.elim
          obtain ⟨rfl, ha1⟩ := hsim
          cases hmod : c.isModify with
          | false =>
            have e1 := step_access hv hmod hn1 hst
            subst e1
            have hl : isLogged q.objs = false := by rw [logged_iff hc, hmod]
            obtain ⟨dbs', a', n, h1, h2⟩ := ih ho' ha1 hh2 hd hf
            refine ⟨dbs', a', n, ?_, h2⟩
            simp only [historyRecords, List.filter_cons, hl, Bool.false_eq_true, if_false]
            exact h1
          | true =>
            have hl : isLogged q.objs = true := by rw [logged_iff hc, hmod]
            obtain ⟨out2, hst2, hsim2⟩ := exec_refines hd (hf 0) hv
            have hsame := step_det (modify_determined hmod hn2) hst hst2
            rcases out2 with _ | ⟨a2, v2⟩
            · rcases v with _ | _ <;> exact hsame.elim
            have e2 : a1 = a2 := by
              rcases v with _ | _ <;> rcases v2 with _ | _
              · exact hsame.1
              · exact hsame.elim
              · exact hsame.elim
              · exact hsame.1
            subst e2
            cases hex2 : execute (envs 0) (dbs 1) c with
            | panic => rw [hex2] at hsim2; exact hsim2.elim
            | diverge => rw [hex2] at hsim2; exact hsim2.elim
            | ok p =>
              obtain ⟨st3, v3⟩ := p
              rw [hex2] at hsim2
              obtain ⟨dbs', a', n, h1, h2, h3, h4⟩ := ih ho' ha1 hh2 (dbs := fun j => if j = 1 then st3 else dbs j) (by simpa using hsim2.2)
                (envs := fun i => envs (i + 1)) (fun i => hf (i + 1))
              refine ⟨dbs', a', n + 1, ?_, h2, h3, fun i hi => by rw [h4 i hi, if_neg hi]⟩
              simp only [historyRecords, List.filter_cons, hl, if_true, List.map_cons, List.cons_append]
              rw [build_cons hq.1.wire hc, hex2]
              simp only [historyRecords] at h1
              exact h1.trans (by congr 1)
      · simp at hs
      · simp at hs
    · simp at hs
    · simp at hs

end Verif
