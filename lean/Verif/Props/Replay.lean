import Verif.Lemmas.Replay
import Verif.Lemmas.Sample

/-! # C33 – replaying the log rebuilds the database -/

namespace Verif.Props

open Spec

/-- C33, for requests in UTF-8 other than LTRIM and SPOP: starting on the log rebuilds the contents. The full claim, `Rebuilds` for all
requests, is false: see `C33_false_ltrim`, `C33_false_spop` and `C33_false_binary`. -/
theorem C33_rebuilds_partial : Rebuilds fun q => ¬ q.Is b!"ltrim" ∧ ¬ q.Is b!"spop" ∧ ∀ o ∈ q.objs, TextObj o := by
  intro h st rs ho hs envs hf
  obtain ⟨dbs, a, n, h1, h2, h3, h4⟩ := replay_abs (h := h) (fun q hq => ⟨(ho q hq).1, (ho q hq).2.1, (ho q hq).2.2.1⟩) abs_empty hs
    (dbs := noDBs) abs_empty hf []
  rw [List.append_nil] at h1
  exact ⟨dbs, a, (fromFile_history (fun q hq => ⟨(ho q hq).1, (ho q hq).2.2.2⟩) _ _).trans h1, h2, h3, h4⟩

theorem sameReply_err {e f : CmdErr} {r s : Resp} (h : e = f ∨ ∃ m n, e = .internal m ∧ f = .internal n) (hr : ErrorReply e r)
    (hs : ErrorReply f s) : SameReply r s := by
  rcases h with rfl | ⟨m, n, rfl, rfl⟩
  · cases e <;> simp only [ErrorReply] at hr hs
    all_goals first | exact .inr ⟨hr, hs⟩ | exact .inl (hr.trans hs.symm)
  · exact .inr ⟨hr, hs⟩

theorem ordered_determined {objs : List Resp} {c : Command} (hm : Means objs c) (h : ∀ n ∈ unordered, ¬ ∃ os, Calls objs n os) :
    Determined c := by
  have key : ∀ n ∈ unordered, ∀ args, ¬ Request objs n args := fun n hn args ⟨os, hc, _⟩ => h n hn ⟨os, hc⟩
  simp only [unordered, List.forall_mem_cons, List.not_mem_nil, false_imp_iff, implies_true, and_true] at key
  obtain ⟨k1, k2, k3, k4, k5, k6, k7, k8, k9⟩ := key
  cases c <;> simp only [Determined]
  case hkeys => exact k1 _ hm
  case hvals => exact k2 _ hm
  case hgetall => exact k3 _ hm
  case smembers => exact k4 _ hm
  case srandmember k n =>
    cases n with
    | none => exact k5 _ hm
    | some n => obtain ⟨_, h, _⟩ := hm; exact k5 _ h
  case spop k n =>
    cases n with
    | none => exact k6 _ hm
    | some n => obtain ⟨_, h, _⟩ := hm; exact k6 _ h
  case sdiff => exact k7 _ hm.2
  case sinter => exact k8 _ hm.2
  case sunion => exact k9 _ hm.2

/-- C33: two servers with the same contents give the same answers to all later requests, whatever happened before, except to requests whose
answers are random or unordered anyway. -/
theorem C33_same_answers {st st' : State} {a : DB} (h : Abs st a) (h' : Abs st' a) (qs qs' : List (Env × List Resp))
    (he : qs.map Prod.snd = qs'.map Prod.snd) (hq : ∀ q ∈ qs, q.1.ord.Fair ∧ ∀ n ∈ unordered, ¬ ∃ os, Calls q.2 n os)
    (hq' : ∀ q ∈ qs', q.1.ord.Fair) : SameRun (serve st qs) (serve st' qs') := by
  induction qs generalizing st st' a qs' with
  | nil =>
    cases qs' with
    | nil => exact ⟨.nil, a, h, h'⟩
    | cons => simp at he
  | cons q qs ih =>
    cases qs' with
    | nil => simp at he
    | cons q' qs' =>
      obtain ⟨env, objs⟩ := q
      obtain ⟨env', objs'⟩ := q'
      simp only [List.map_cons, List.cons.injEq] at he
      obtain ⟨rfl, he⟩ := he
      have hq1 := hq _ List.mem_cons_self
      have hf2 := hq' _ List.mem_cons_self
      have step : (handle env st objs = .panic ∧ handle env' st' objs = .panic) ∨
          ∃ s s' b r r', handle env st objs = .ok (s, r) ∧ handle env' st' objs = .ok (s', r') ∧ Abs s b ∧ Abs s' b ∧ SameReply r r' := by
        by_cases hm : ∃ c, Means objs c
        · obtain ⟨c, hm⟩ := hm
          have hd := ordered_determined hm hq1.2
          obtain ⟨o1, s1, b1⟩ := handle_refines h hq1.1 hm
          obtain ⟨o2, s2, b2⟩ := handle_refines h' hf2 hm
          have hsame := step_det hd s1 s2
          rcases o1 with _ | ⟨a1, e1 | r1⟩ <;> rcases o2 with _ | ⟨a2, e2 | r2⟩ <;> simp only [SameOut] at hsame
          · exact .inl ⟨b1, b2⟩
          · obtain ⟨rfl, hsame⟩ := hsame
            obtain ⟨x, hx, y, hy, hz⟩ := b1
            obtain ⟨x', hx', y', hy', hz'⟩ := b2
            exact .inr ⟨_, _, _, _, _, hy, hy', hz, hz', sameReply_err hsame hx hx'⟩
          · obtain ⟨rfl, rfl⟩ := hsame
            obtain ⟨y, hy, hz⟩ := b1
            obtain ⟨y', hy', hz'⟩ := b2
            exact .inr ⟨_, _, _, _, _, hy, hy', hz, hz', .inl rfl⟩
        · obtain ⟨e, g1, g2⟩ := handle_bad (env := env) (st := st) hm
          obtain ⟨e', g1', g2'⟩ := handle_bad (env := env') (st := st') hm
          rw [g1] at g1'; cases g1'
          exact .inr ⟨_, _, _, _, _, g2, g2', h, h', .inl rfl⟩
      simp only [serve]
      rcases step with ⟨e1, e2⟩ | ⟨s, s', b, r, r', e1, e2, ha, ha', hsame⟩
      · simp only [e1, e2, SameRun]
      · have := ih ha ha' qs' he (fun q hq' => hq q (List.mem_cons_of_mem _ hq')) (fun q hq => hq' q (List.mem_cons_of_mem _ hq))
        simp only [e1, e2]
        rcases hx : serve s qs with ⟨_, _⟩ | _ | _ <;> rcases hy : serve s' qs' with ⟨_, _⟩ | _ | _ <;> simp only [hx, hy, SameRun] at this ⊢
        exact ⟨.cons hsame this.1, this.2⟩

/-- C33, in one statement: the rebuilt server answers later requests as the old one would have. -/
theorem C33_answers_partial {h : List Req} {st : State} {rs : List Resp}
    (ho : ∀ q ∈ h, q.Occurs ∧ ¬ q.Is b!"ltrim" ∧ ¬ q.Is b!"spop" ∧ ∀ o ∈ q.objs, TextObj o)
    (hs : serve State.empty (served h) = .ok (st, rs)) {envs : Nat → Env} (hf : ∀ i, (envs i).ord.Fair) :
    ∃ dbs, fromFile noDBs envs (historyLog h) = .ok dbs ∧ ∀ qs qs' : List (Env × List Resp), qs.map Prod.snd = qs'.map Prod.snd →
      (∀ q ∈ qs, q.1.ord.Fair ∧ ∀ n ∈ unordered, ¬ ∃ os, Calls q.2 n os) → (∀ q ∈ qs', q.1.ord.Fair) →
      SameRun (serve st qs) (serve (dbs 1) qs') := by
  obtain ⟨dbs, a, h1, h2, h3, -⟩ := C33_rebuilds_partial h st rs ho hs envs hf
  exact ⟨dbs, h1, fun qs qs' he hq hq' => C33_same_answers h2 h3 qs qs' he hq hq'⟩

/-- C33: a record is written before its request is executed. If a request that kills the server has reached the log file, starting on that
file kills the server again, whatever the circumstances. -/
theorem C33_crash_loop {h : List Req} {st : State} {rs : List Resp} {q : Req}
    (ho : ∀ q ∈ h, q.Occurs ∧ ¬ q.Is b!"ltrim" ∧ ¬ q.Is b!"spop" ∧ ∀ o ∈ q.objs, TextObj o)
    (hs : serve State.empty (served h) = .ok (st, rs)) (hq : q.Occurs) (ht : ∀ o ∈ q.objs, TextObj o) (hl : isLogged q.objs = true)
    (hc : Crashes q.env st q.objs) {envs : Nat → Env} (hf : ∀ i, (envs i).ord.Fair) :
    fromFile noDBs envs (historyLog (h ++ [q])) = .panic := by
  rw [fromFile_history]
  swap
  · intro p hp
    rcases List.mem_append.1 hp with hp | hp
    · exact ⟨(ho p hp).1, (ho p hp).2.2.2⟩
    · rw [List.mem_singleton.1 hp]; exact ⟨hq, ht⟩
  have e : historyRecords (h ++ [q]) = historyRecords h ++ [reqLog q] := by simp [historyRecords, hl]
  obtain ⟨dbs, a, n, h1, h2, h3, h4⟩ := replay_abs (h := h) (fun q hq => ⟨(ho q hq).1, (ho q hq).2.1, (ho q hq).2.2.1⟩) abs_empty hs
    (dbs := noDBs) abs_empty hf [reqLog q]
  obtain ⟨c, hcmd, -⟩ := logged_command hl
  have hv := requestCommand_valid hcmd
  rw [e, h1, build_cons hq.wire hcmd]
  have hfat : FatalC a c := by
    obtain ⟨out, hst, hsim⟩ := exec_refines h2 hq.fair hv
    have hp : execute q.env st c = .panic := by
      unfold Crashes handle at hc
      rw [hcmd] at hc
      revert hc
      dsimp only
      rcases execute q.env st c with ⟨_, _ | _⟩ | _ | _ <;> simp
    rw [hp] at hsim
    rcases out with _ | _
    · cases step_outline hv hst; assumption
    · exact hsim.elim
  obtain ⟨out, hst, hsim⟩ := exec_refines h3 (hf (0 + n)) hv
  have : out = none := by
    cases step_outline hv hst
    · contradiction
    · contradiction
    · rename_i k e hk
      subst e
      exact absurd hfat hk
    · rfl
  subst this
  revert hsim
  rcases execute (envs (0 + n)) (dbs 1) c with ⟨_, _⟩ | _ | _ <;> simp [Sim]

/-! ### Sample histories -/

theorem wire_req {ws : List Bytes} (h : ws.length < 2 ^ 63) (h' : ∀ w ∈ ws, w.length + 2 < 2 ^ 63) :
    ∃ s r, parse s = .ok (.array (req ws)) r := by
  refine ⟨_, [], parse_encode _ (.array ?_) (.array (by simpa [req] using h) ?_) []⟩
  · intro o ho
    obtain ⟨w, _, rfl⟩ := List.mem_map.1 ho
    exact .bulk
  · intro o ho
    obtain ⟨w, hw, rfl⟩ := List.mem_map.1 ho
    exact .bulk (h' w hw)

theorem text_req {ws : List Bytes} (h : ∀ w ∈ ws, ValidUTF8 w) : ∀ o ∈ req ws, TextObj o := by
  intro o ho
  obtain ⟨w, hw, rfl⟩ := List.mem_map.1 ho
  exact .bulk (h w hw)

def stamp0 : Stamp := { id := b!"a1", time := 7, host := b!"h" }

/-- A request with surroundings. -/
def sent (ws : List Bytes) : Req := { stamp := stamp0, env := env0, objs := req ws }

theorem sent_occurs {ws : List Bytes} (h : ws.length < 2 ^ 63 := by decide) (h' : ∀ w ∈ ws, w.length + 2 < 2 ^ 63 := by decide)
    (hs : (requestLog stamp0 (req ws)).length < 2 ^ 32 + 4 := by decide) : (sent ws).Occurs :=
  ⟨env0_fair, wire_req h h', (by show InInt64 7; unfold InInt64 minInt64 maxInt64; decide), (Proto.utf8Valid_iff b!"a1").1 (by decide), (Proto.utf8Valid_iff b!"h").1 (by decide), hs⟩

theorem sent_is {n : Bytes} {ws : List Bytes} {name : Bytes} (h : toLower n ≠ name) : ¬ (sent (n :: ws)).Is name := by
  rintro ⟨os, o, m, e, ht, hf⟩
  cases e; cases ht
  exact h (folds_toLower hf)

theorem sent_text {ws : List Bytes} (h : ∀ w ∈ ws, Proto.utf8Valid w = true := by decide) : ∀ o ∈ (sent ws).objs, TextObj o :=
  text_req fun w hw => (Proto.utf8Valid_iff _).1 (h w hw)

/-- The hypotheses of `C33_rebuilds_partial` are met, with text outside ASCII. -/
example : ∃ st rs, serve State.empty (served [sent [b!"SET", b!"k", [0xC3, 0xA9]], sent [b!"get", b!"k"], sent [b!"Append", b!"k", b!"x"]]) = .ok (st, rs) ∧
    ∀ q ∈ [sent [b!"SET", b!"k", [0xC3, 0xA9]], sent [b!"get", b!"k"], sent [b!"Append", b!"k", b!"x"]],
      q.Occurs ∧ ¬ q.Is b!"ltrim" ∧ ¬ q.Is b!"spop" ∧ ∀ o ∈ q.objs, TextObj o := by
  refine ⟨_, _, rfl, ?_⟩
  simp only [List.forall_mem_cons, List.not_mem_nil, false_imp_iff, implies_true, and_true]
  exact ⟨⟨sent_occurs, sent_is (by decide), sent_is (by decide), sent_text⟩, ⟨sent_occurs, sent_is (by decide), sent_is (by decide), sent_text⟩,
    ⟨sent_occurs, sent_is (by decide), sent_is (by decide), sent_text⟩⟩

/-- A request of `C33_same_answers`. -/
example : ∀ n ∈ unordered, ¬ ∃ os, Calls (req [b!"lrange", b!"l", b!"0", b!"-1"]) n os := by
  rintro n hn ⟨os, o, m, e, ht, hf⟩
  cases e; cases ht
  have := folds_toLower hf
  subst this
  revert hn; decide

/-- A request of `C33_crash_loop`: SADD with the empty key. -/
example : Crashes env0 State.empty (sent [b!"sadd", [], b!"x"]).objs ∧ isLogged (sent [b!"sadd", [], b!"x"]).objs = true ∧
    (sent [b!"sadd", [], b!"x"]).Occurs ∧ ∀ o ∈ (sent [b!"sadd", [], b!"x"]).objs, TextObj o := ⟨rfl, rfl, sent_occurs, sent_text⟩

/-! ### The full claim is false -/

/-- If one database answers a request with `r` and another with `s`, they do not hold the same contents. -/
theorem differ {st st' : State} {a : DB} (h : Abs st a) (h' : Abs st' a) (ws : List Bytes) (n : Bytes) (hn : toLower n ∉ unordered)
    {r s : Resp} {t t' : State} (hr : handle env0 st (req (n :: ws)) = .ok (t, r)) (hs : handle env0 st' (req (n :: ws)) = .ok (t', s)) :
    SameReply r s := by
  have := C33_same_answers h h' [(env0, req (n :: ws))] [(env0, req (n :: ws))] rfl
    (by
      simp only [List.mem_singleton, forall_eq]
      refine ⟨env0_fair, ?_⟩
      rintro m hm ⟨os, o, m', e, ht, hf⟩
      cases e; cases ht
      exact hn (folds_toLower hf ▸ hm))
    (by simpa using env0_fair)
  simp only [serve, hr, hs, SameRun] at this
  cases this.1
  assumption

theorem not_same_int {m n : Int} (h : m ≠ n) : ¬ SameReply (.int m) (.int n) := by
  rintro (e | ⟨⟨_, e⟩, _⟩)
  · exact h (Resp.int.inj e)
  · cases e

/-- C33 is false with LTRIM, which is not logged. -/
theorem C33_false_ltrim : ¬ Rebuilds fun q => ¬ q.Is b!"spop" ∧ ∀ o ∈ q.objs, TextObj o := by
  intro hR
  have o1 : (sent [b!"rpush", b!"l", b!"a", b!"b"]).Occurs := sent_occurs
  have o2 : (sent [b!"ltrim", b!"l", b!"0", b!"0"]).Occurs := sent_occurs
  obtain ⟨dbs, a, h1, h2, h3, -⟩ := hR [sent [b!"rpush", b!"l", b!"a", b!"b"], sent [b!"ltrim", b!"l", b!"0", b!"0"]] _ _
    (by
      simp only [List.forall_mem_cons, List.not_mem_nil, false_imp_iff, implies_true, and_true]
      exact ⟨⟨o1, sent_is (by decide), sent_text⟩, ⟨o2, sent_is (by decide), sent_text⟩⟩) rfl (fun _ => env0) (fun _ => env0_fair)
  obtain ⟨dbs', a', h1', h2', h3', -⟩ := C33_rebuilds_partial [sent [b!"rpush", b!"l", b!"a", b!"b"]] _ _
    (by
      simp only [List.forall_mem_cons, List.not_mem_nil, false_imp_iff, implies_true, and_true]
      exact ⟨o1, sent_is (by decide), sent_is (by decide), sent_text⟩) rfl (fun _ => env0) (fun _ => env0_fair)
  have e : historyLog [sent [b!"rpush", b!"l", b!"a", b!"b"], sent [b!"ltrim", b!"l", b!"0", b!"0"]] =
      historyLog [sent [b!"rpush", b!"l", b!"a", b!"b"]] := by
    simp only [historyLog, List.flatMap_cons, List.flatMap_nil, List.append_nil]
    exact List.append_nil _
  rw [e, h1'] at h1
  cases h1
  cases abs_unique h3 h3'
  exact not_same_int (by decide) (differ h2 h2' [b!"l"] b!"llen" (by decide) rfl rfl)

/-- Surroundings in which maps are iterated in reverse. -/
def envR : Env := { ord := fun _ l => l.reverse, addr := fun _ => 824634482688, table := fun _ => true }

theorem envR_fair : envR.ord.Fair := fun _ _ => List.reverse_perm _

/-- C33 is false with SPOP, which is replayed with another random choice. -/
theorem C33_false_spop : ¬ Rebuilds fun q => ¬ q.Is b!"ltrim" ∧ ∀ o ∈ q.objs, TextObj o := by
  intro hR
  have o1 : (sent [b!"sadd", b!"s", b!"a", b!"b"]).Occurs := sent_occurs
  have o2 : (sent [b!"spop", b!"s"]).Occurs := sent_occurs
  have t1 : ∀ o ∈ (sent [b!"sadd", b!"s", b!"a", b!"b"]).objs, TextObj o := sent_text
  have t2 : ∀ o ∈ (sent [b!"spop", b!"s"]).objs, TextObj o := sent_text
  obtain ⟨dbs, a, h1, h2, h3, -⟩ := hR [sent [b!"sadd", b!"s", b!"a", b!"b"], sent [b!"spop", b!"s"]] _ _
    (by
      simp only [List.forall_mem_cons, List.not_mem_nil, false_imp_iff, implies_true, and_true]
      exact ⟨⟨o1, sent_is (by decide), t1⟩, ⟨o2, sent_is (by decide), t2⟩⟩) rfl (fun _ => envR) (fun _ => envR_fair)
  rw [fromFile_history (by
      simp only [List.forall_mem_cons, List.not_mem_nil, false_imp_iff, implies_true, and_true]
      exact ⟨⟨o1, t1⟩, ⟨o2, t2⟩⟩)] at h1
  have e : historyRecords [sent [b!"sadd", b!"s", b!"a", b!"b"], sent [b!"spop", b!"s"]] =
    [reqLog (sent [b!"sadd", b!"s", b!"a", b!"b"]), reqLog (sent [b!"spop", b!"s"])] := rfl
  rw [e, build_cons o1.wire (c := .sadd b!"s" [b!"a", b!"b"]) rfl] at h1
  dsimp only [noDBs] at h1
  have e1 : execute envR State.empty (.sadd b!"s" [b!"a", b!"b"]) = .ok (_, .ok (.int 2)) := rfl
  rw [e1] at h1
  dsimp only at h1
  rw [build_cons o2.wire (c := .spop b!"s" none) rfl] at h1
  simp only [if_true] at h1
  replace h1 : Outcome.ok _ = Outcome.ok dbs := h1
  rw [Outcome.ok.injEq] at h1
  subst h1
  exact not_same_int (by decide) (differ h2 h3 [b!"s", b!"a"] b!"sismember" (by decide) rfl rfl)

/-- C33 is false with values that are not UTF-8, whose records cannot be packed. -/
theorem C33_false_binary : ¬ Rebuilds fun q => ¬ q.Is b!"ltrim" ∧ ¬ q.Is b!"spop" := by
  intro hR
  obtain ⟨dbs, a, h1, h2, h3, -⟩ := hR [sent [b!"set", b!"k", [0xFF]]] _ _
    (by
      simp only [List.forall_mem_cons, List.not_mem_nil, false_imp_iff, implies_true, and_true]
      exact ⟨sent_occurs, sent_is (by decide), sent_is (by decide)⟩) rfl (fun _ => env0) (fun _ => env0_fair)
  have e : historyLog [sent [b!"set", b!"k", [0xFF]]] = [] := by
    simp only [historyLog, List.flatMap_cons, List.flatMap_nil, List.append_nil]
    decide
  rw [e] at h1
  have e' : fromFile noDBs (fun _ => env0) [] = .ok noDBs := rfl
  rw [e'] at h1
  cases h1
  exact not_same_int (by decide) (differ h2 h3 [b!"k"] b!"exists" (by decide) rfl rfl)

end Verif.Props
