import Verif.Lemmas.Decimal
import Verif.Lemmas.Frame
import Verif.Lemmas.Sample

/-! # C08–C12 – string keys -/

namespace Verif.Props

open Verif Spec

variable {env env' env'' : Env} {st st' : State} {a : DB} {objs objs' objs'' : List Resp} {k v : Bytes}

/-! ## C08 -/

/-- The request adds `δ` to the string key `k`: INCRBY, INCR, DECRBY or DECR. -/
inductive Adds (objs : List Resp) (k : Bytes) : Int → Prop where
  | incrby {arg : Bytes} {d : Int} : Request objs b!"incrby" [k, arg] → IsInt arg d → Adds objs k d
  | incr {o : Resp} {os : List Resp} : Calls objs b!"incr" (o :: os) → IsText o k → Adds objs k 1
  | decrby {arg : Bytes} {d : Int} : Request objs b!"decrby" [k, arg] → IsInt arg d → Adds objs k (-d)
  | decr {o : Resp} {os : List Resp} : Calls objs b!"decr" (o :: os) → IsText o k → Adds objs k (-1)

theorem isInt_one : IsInt b!"1" 1 := isInt_iff.2 (by decide)

theorem adds_step {δ : Int} (h : Abs st a) (ho : env.ord.Fair) (ha : Adds objs k δ) :
    ∃ out, Observes env st objs out ∧
      ((∃ old v r s, a.strs k = some old ∧ IsInt old v ∧ Wraps (v + δ) r ∧ Decimal s r ∧ out = done (a.setStr k s) (.int r)) ∨
       (a.strs k = none ∧ out = fails a .noSuchKey) ∨
       ((∃ old, a.strs k = some old ∧ ¬ ∃ v, IsInt old v) ∧ out = fails a .notAInt)) := by
  have inc : ∀ {arg d}, IsInt arg d → Means objs (.incr k arg) → ∃ out, Observes env st objs out ∧
      ((∃ old v r s, a.strs k = some old ∧ IsInt old v ∧ Wraps (v + d) r ∧ Decimal s r ∧ out = done (a.setStr k s) (.int r)) ∨
       (a.strs k = none ∧ out = fails a .noSuchKey) ∨
       ((∃ old, a.strs k = some old ∧ ¬ ∃ v, IsInt old v) ∧ out = fails a .notAInt)) := by
    intro arg d hd hm
    obtain ⟨out, hs, hob⟩ := handle_refines h ho hm
    refine ⟨out, hob, ?_⟩
    rcases hs with ⟨old, v, d', r, s, h1, h2, h3, h4, h5, h6⟩ | ⟨h1, -⟩ | ⟨-, h2⟩ | ⟨-, h2⟩
    · exact .inl ⟨old, v, r, s, h1, h2, isInt_unique h3 hd ▸ h4, h5, h6⟩
    · exact absurd ⟨d, hd⟩ h1
    · exact .inr (.inl h2)
    · exact .inr (.inr h2)
  have dec : ∀ {arg d}, IsInt arg d → Means objs (.decr k arg) → ∃ out, Observes env st objs out ∧
      ((∃ old v r s, a.strs k = some old ∧ IsInt old v ∧ Wraps (v + -d) r ∧ Decimal s r ∧ out = done (a.setStr k s) (.int r)) ∨
       (a.strs k = none ∧ out = fails a .noSuchKey) ∨
       ((∃ old, a.strs k = some old ∧ ¬ ∃ v, IsInt old v) ∧ out = fails a .notAInt)) := by
    intro arg d hd hm
    obtain ⟨out, hs, hob⟩ := handle_refines h ho hm
    refine ⟨out, hob, ?_⟩
    rcases hs with ⟨old, v, d', r, s, h1, h2, h3, h4, h5, h6⟩ | ⟨h1, -⟩ | ⟨-, h2⟩ | ⟨-, h2⟩
    · refine .inl ⟨old, v, r, s, h1, h2, ?_, h5, h6⟩
      rw [isInt_unique h3 hd] at h4; exact h4
    · exact absurd ⟨d, hd⟩ h1
    · exact .inr (.inl h2)
    · exact .inr (.inr h2)
  cases ha with
  | incrby hr hd => exact inc hd (.inl hr)
  | incr hc ht => exact inc isInt_one (.inr ⟨rfl, .inr ⟨_, _, hc, ht⟩⟩)
  | decrby hr hd => exact dec hd (.inl hr)
  | decr hc ht => exact dec isInt_one (.inr ⟨rfl, .inr ⟨_, _, hc, ht⟩⟩)

/-- C08 (arithmetic): adding `δ` to a key holding the integer `v` replies `v + δ` (exactly when this fits into 64 bits, otherwise the
64-bit number congruent to it modulo 2^64) and stores its decimal form under this key; nothing else changes. -/
theorem C08_add {δ x : Int} {old : Bytes} (h : Abs st a) (ho : env.ord.Fair) (ha : Adds objs k δ) (hk : a.strs k = some old)
    (hx : IsInt old x) : ∃ r s, Wraps (x + δ) r ∧ (InInt64 (x + δ) → r = x + δ) ∧ Decimal s r ∧ Answers env st objs (a.setStr k s) (.int r) := by
  obtain ⟨out, hob, ⟨old', y, r, s, h1, h2, h3, h4, rfl⟩ | ⟨h1, -⟩ | ⟨⟨old', h1, h2⟩, -⟩⟩ := adds_step h ho ha
  · rw [hk] at h1; cases h1
    rw [isInt_unique h2 hx] at h3
    exact ⟨r, s, h3, wraps_exact h3, h4, hob⟩
  · rw [hk] at h1; cases h1
  · rw [hk] at h1; cases h1; exact absurd ⟨x, hx⟩ h2

/-- C08 (errors): a missing key, or a value that is not a 64-bit integer, is answered by an error and nothing changes. -/
theorem C08_errors {δ : Int} (h : Abs st a) (ho : env.ord.Fair) (ha : Adds objs k δ) :
    (a.strs k = none → Answers env st objs a (.error b!"ERR no such key")) ∧
    (∀ old, a.strs k = some old → (¬ ∃ x, IsInt old x) → Answers env st objs a (.error b!"ERR value is not an integer or out of range")) := by
  obtain ⟨out, hob, ⟨old', y, r, s, h1, h2, h3, h4, rfl⟩ | ⟨h1, rfl⟩ | ⟨⟨old', h1, h2⟩, rfl⟩⟩ := adds_step h ho ha
  · refine ⟨fun h => ?_, fun old ho hn => ?_⟩
    · rw [h] at h1; cases h1
    · rw [ho] at h1; cases h1; exact absurd ⟨y, h2⟩ hn
  · obtain ⟨r, her, hb⟩ := hob
    cases her
    exact ⟨fun _ => hb, fun old ho => by rw [ho] at h1; cases h1⟩
  · obtain ⟨r, her, hb⟩ := hob
    cases her
    exact ⟨fun h => (by rw [h] at h1; cases h1), fun _ _ _ => hb⟩

/-- C08 (errors): a step that is not a 64-bit integer is answered by an error and nothing changes. -/
theorem C08_bad_step {arg : Bytes} (h : Abs st a) (ho : env.ord.Fair)
    (hr : Request objs b!"incrby" [k, arg] ∨ Request objs b!"decrby" [k, arg]) (hd : ¬ ∃ d, IsInt arg d) :
    ∃ r, InternalError r ∧ Answers env st objs a r := by
  rcases hr with hr | hr
  · obtain ⟨out, hs, hob⟩ := handle_refines h ho (c := .incr k arg) (.inl hr)
    rcases hs with ⟨old, v, d', r, s, h1, h2, h3, h4, h5, h6⟩ | ⟨-, msg, rfl⟩ | ⟨h2, -⟩ | ⟨h2, -⟩
    · exact absurd ⟨_, h3⟩ hd
    · exact hob
    · exact absurd h2 hd
    · exact absurd h2 hd
  · obtain ⟨out, hs, hob⟩ := handle_refines h ho (c := .decr k arg) (.inl hr)
    rcases hs with ⟨old, v, d', r, s, h1, h2, h3, h4, h5, h6⟩ | ⟨-, msg, rfl⟩ | ⟨h2, -⟩ | ⟨h2, -⟩
    · exact absurd ⟨_, h3⟩ hd
    · exact hob
    · exact absurd h2 hd
    · exact absurd h2 hd

theorem get_answers (h : Abs st a) (ho : env.ord.Fair) (hr : Request objs b!"get" [k]) : Answers env st objs a (bulk? (a.strs k)) := by
  obtain ⟨out, hs, hob⟩ := handle_refines h ho (c := .get k) hr
  simp only [Step] at hs; subst hs; exact hob

theorem strlen_answers (h : Abs st a) (ho : env.ord.Fair) (hr : Request objs b!"strlen" [k]) :
    Answers env st objs a (.int ((a.strs k).getD []).length) := by
  obtain ⟨out, hs, hob⟩ := handle_refines h ho (c := .strlen k) hr
  simp only [Step] at hs; subst hs; exact hob

/-- C08 (visibility): after the request, GET replies the decimal form of the replied number and STRLEN its length. -/
theorem C08_then_get {δ x : Int} {old : Bytes} (h : Abs st a) (ho : env.ord.Fair) (ho' : env'.ord.Fair) (ho'' : env''.ord.Fair)
    (ha : Adds objs k δ) (hk : a.strs k = some old) (hx : IsInt old x) (hg : Request objs' b!"get" [k]) (hl : Request objs'' b!"strlen" [k]) :
    ∃ r s st', Wraps (x + δ) r ∧ Decimal s r ∧
      serve st [(env, objs), (env', objs'), (env'', objs'')] = .ok (st', [.int r, .bulk s, .int s.length]) := by
  obtain ⟨r, s, h1, -, h2, st1, e1, a1⟩ := C08_add h ho ha hk hx
  obtain ⟨st2, e2, a2⟩ := get_answers a1 ho' hg
  obtain ⟨st3, e3, a3⟩ := strlen_answers a2 ho'' hl
  refine ⟨r, s, st3, h1, h2, ?_⟩
  simp [DB.setStr] at e2 e3
  simp [serve, e1, e2, e3, bulk?]

/-- C08 (histories): any number of such requests on one key add up: the i-th reply is the initial value plus the first i steps, modulo
2^64. -/
theorem C08_accumulates {reqs : List (Env × List Resp)} {δs : List Int} {rs : List Resp} {x : Int} {old : Bytes} (h : Abs st a)
    (ho : ∀ q ∈ reqs, q.1.ord.Fair) (ha : List.Forall₂ (fun q δ => Adds q.2 k δ) reqs δs) (hk : a.strs k = some old) (hx : IsInt old x)
    (hs : serve st reqs = .ok (st', rs)) :
    rs.length = reqs.length ∧ ∀ i < reqs.length, ∃ r, rs[i]? = some (.int r) ∧ Wraps (x + (δs.take (i + 1)).sum) r := by
  induction ha generalizing st a rs x old with
  | nil => simp [serve] at hs; simp [hs.2]
  | @cons q δ reqs δs h1 _ ih =>
    obtain ⟨env, objs⟩ := q
    obtain ⟨r, s, hw, -, hd, st1, e1, a1⟩ := C08_add h (ho (env, objs) (by simp)) h1 hk hx
    simp only [serve, e1] at hs
    cases hs2 : serve st1 reqs with
    | panic => rw [hs2] at hs; simp at hs
    | diverge => rw [hs2] at hs; simp at hs
    | ok p =>
      obtain ⟨st2, rs2⟩ := p
      rw [hs2] at hs; simp at hs
      obtain ⟨rfl, rfl⟩ := hs
      obtain ⟨l, hi⟩ := ih a1 (fun q hq => ho q (by simp [hq])) (by simp [DB.setStr]) (decimal_isInt hd hw.1) hs2
      refine ⟨by simp [l], fun i hlt => ?_⟩
      cases i with
      | zero => exact ⟨r, rfl, by simpa using hw⟩
      | succ i =>
        obtain ⟨r', g1, g2⟩ := hi i (by simpa using hlt)
        refine ⟨r', by simpa using g1, ?_⟩
        rw [List.take_succ_cons, List.sum_cons, ← Int.add_assoc]
        exact wraps_trans hw g2

/-- The hypotheses can be met: INCRBY n 5 and DECR n on a key holding 41; and the theorem then gives 46. -/
example : ∃ st st' , Reachable st ∧ handle env0 st (req [b!"INCRBY", b!"n", b!"5"]) = .ok (st', .int 46) ∧
    Adds (req [b!"decr", b!"n"]) b!"n" (-1) := by
  obtain ⟨st, hr, ha⟩ := sample_reachable
  obtain ⟨r, s, h1, h2, h3, st', e, -⟩ := C08_add ha env0_fair (objs := req [b!"INCRBY", b!"n", b!"5"]) (k := b!"n") (δ := 5) (x := 41)
    (.incrby (arg := b!"5") (request_req _) (isInt_iff.2 (by decide))) rfl (isInt_iff.2 (by decide))
  have := h2 (by unfold InInt64; decide)
  subst this
  obtain ⟨o, os, hc, ht⟩ := request_head (request_req (name := b!"decr") (n := b!"decr") [b!"n"])
  exact ⟨st, st', hr, e, .decr hc ht⟩

/-- and an overflow wraps around. -/
example : Wraps (9223372036854775807 + 1) (-9223372036854775808) := ⟨by unfold InInt64; decide, -1, by decide⟩

/-! ## C09 -/

theorem serve_keeps_str {reqs : List (Env × List Resp)} {rs : List Resp} (h : Abs st a) (ho : ∀ q ∈ reqs, q.1.ord.Fair)
    (hw : ∀ q ∈ reqs, ¬ Writes .str q.2 k) (hs : serve st reqs = .ok (st', rs)) : ∃ a', Abs st' a' ∧ a'.strs k = a.strs k := by
  induction reqs generalizing st a rs with
  | nil => simp [serve] at hs; obtain ⟨rfl, rfl⟩ := hs; exact ⟨a, h, rfl⟩
  | cons q reqs ih =>
    obtain ⟨env, objs⟩ := q
    simp only [serve] at hs
    rcases handle_outline objs h (ho (env, objs) (by simp)) with ⟨-, e⟩ | ⟨-, st1, a1, r, e, ha, h1, -⟩
    · rw [e] at hs; simp at hs
    · rw [e] at hs
      simp only at hs
      cases hs2 : serve st1 reqs with
      | panic => rw [hs2] at hs; simp at hs
      | diverge => rw [hs2] at hs; simp at hs
      | ok p =>
        obtain ⟨st2, rs2⟩ := p
        rw [hs2] at hs; simp at hs
        obtain ⟨rfl, rfl⟩ := hs
        obtain ⟨a', ha', e'⟩ := ih ha (fun q hq => ho q (by simp [hq])) (fun q hq => hw q (by simp [hq])) hs2
        exact ⟨a', ha', e'.trans (h1 k (hw (env, objs) (by simp)))⟩

theorem serve_snoc_get {reqs : List (Env × List Resp)} {st1 : State} {rs : List Resp} {r : Resp} (hs : serve st reqs = .ok (st1, rs))
    (hh : handle env st1 objs = .ok (st', r)) : serve st (reqs ++ [(env, objs)]) = .ok (st', rs ++ [r]) := by
  rw [serve_append hs]; simp [serve, hh]

/-- C09: after SET k v, and any further requests that do not write the string key `k` (and do not kill the server), GET k replies
exactly `v`. -/
theorem C09_get_after_set {reqs : List (Env × List Resp)} {rs : List Resp} (h : Abs st a) (ho : env.ord.Fair) (ho' : env'.ord.Fair)
    (hr : ∀ q ∈ reqs, q.1.ord.Fair) (hset : Request objs b!"set" [k, v]) (hw : ∀ q ∈ reqs, ¬ Writes .str q.2 k)
    (hs : serve st ((env, objs) :: reqs) = .ok (st', rs)) (hget : Request objs' b!"get" [k]) :
    ∃ st'', serve st (((env, objs) :: reqs) ++ [(env', objs')]) = .ok (st'', rs ++ [.bulk v]) := by
  obtain ⟨out, hst, hob⟩ := handle_refines h ho (c := .set k v) hset
  simp only [Step] at hst; subst hst
  obtain ⟨st1, e1, a1⟩ := hob
  have hs' := hs
  simp only [serve, e1] at hs'
  cases hs2 : serve st1 reqs with
  | panic => rw [hs2] at hs'; simp at hs'
  | diverge => rw [hs2] at hs'; simp at hs'
  | ok p =>
    obtain ⟨st2, rs2⟩ := p
    rw [hs2] at hs'; simp at hs'
    obtain ⟨rfl, -⟩ := hs'
    obtain ⟨a', ha', e'⟩ := serve_keeps_str a1 hr hw hs2
    obtain ⟨st3, e3, -⟩ := get_answers ha' ho' hget
    rw [e'] at e3
    simp [DB.setStr, bulk?] at e3
    exact ⟨st3, serve_snoc_get hs e3⟩

/-- C09: GET of a key that no request has written replies null. -/
theorem C09_never_written {reqs : List (Env × List Resp)} {rs : List Resp} (ho : env.ord.Fair)
    (hr : ∀ q ∈ reqs, q.1.ord.Fair) (hw : ∀ q ∈ reqs, ¬ Writes .str q.2 k) (hs : serve State.empty reqs = .ok (st', rs))
    (hget : Request objs b!"get" [k]) : ∃ st'', serve State.empty (reqs ++ [(env, objs)]) = .ok (st'', rs ++ [.nullBulk]) := by
  obtain ⟨a', ha', e'⟩ := serve_keeps_str abs_empty hr hw hs
  obtain ⟨st3, e3, -⟩ := get_answers ha' ho hget
  rw [e'] at e3
  exact ⟨st3, serve_snoc_get hs e3⟩

/-- The hypotheses can be met: between SET and GET of `k` come a write to the list `k` and a write to the string `j`. -/
example : ∃ st' rs, Request (req [b!"set", b!"k", b!"v"]) b!"set" [b!"k", b!"v"] ∧
    (∀ q ∈ [(env0, req [b!"RPUSH", b!"k", b!"x"]), (env0, req [b!"append", b!"j", b!"k"])], ¬ Writes .str q.2 b!"k") ∧
    serve State.empty [(env0, req [b!"set", b!"k", b!"v"]), (env0, req [b!"RPUSH", b!"k", b!"x"]), (env0, req [b!"append", b!"j", b!"k"])] =
      .ok (st', rs) := by
  refine ⟨_, _, request_req _, ?_, rfl⟩
  intro q hq
  simp only [List.mem_cons, List.not_mem_nil, or_false] at hq
  have nw : ∀ {n : Bytes} {k' : Bytes} {args : List Bytes}, k' ≠ b!"k" → toLower n ≠ b!"mset" → ¬ Writes .str (req (n :: k' :: args)) b!"k" := by
    rintro n k' args hk hm (⟨name, hn, o, os, ⟨p, n', e, ht, hf⟩, ht'⟩ | ⟨-, os, i, o, ⟨p, n', e, ht, hf⟩, -⟩)
    · cases e; cases ht'; exact hk rfl
    · cases e; cases ht; exact hm (folds_toLower hf)
  rcases hq with rfl | rfl
  · rintro (⟨name, hn, o, os, ⟨p, n', e, ht, hf⟩, ht'⟩ | ⟨-, os, i, o, ⟨p, n', e, ht, hf⟩, -⟩)
    · cases e; cases ht
      have := folds_toLower hf
      subst this
      exact absurd hn (by decide)
    · cases e; cases ht
      have := folds_toLower hf
      exact absurd this (by decide)
  · exact nw (by decide) (by decide)

/-! ## C10 -/

/-- C10 (APPEND): the new value is the old one (empty if missing) followed by `v`; the reply is its length; nothing else changes. -/
theorem C10_append (h : Abs st a) (ho : env.ord.Fair) (hr : Request objs b!"append" [k, v]) :
    (∀ old, a.strs k = some old → Answers env st objs (a.setStr k (old ++ v)) (.int (old.length + v.length))) ∧
    (a.strs k = none → Answers env st objs (a.setStr k v) (.int v.length)) := by
  obtain ⟨out, hs, hob⟩ := handle_refines h ho (c := .append k v) hr
  simp only [Step] at hs; subst hs
  refine ⟨fun old e => ?_, fun e => ?_⟩
  · rw [e] at hob; simpa [done, Observes] using hob
  · rw [e] at hob; simpa [done, Observes] using hob

/-- C10 (STRLEN): in every state STRLEN replies the length of what GET replies, 0 if GET replies null, and neither changes anything. -/
theorem C10_strlen (h : Abs st a) (ho : env.ord.Fair) (ho' : env'.ord.Fair) (hg : Request objs b!"get" [k])
    (hl : Request objs' b!"strlen" [k]) :
    (∃ s : Bytes, Answers env st objs a (.bulk s) ∧ Answers env' st objs' a (.int s.length)) ∨
    (Answers env st objs a .nullBulk ∧ Answers env' st objs' a (.int 0)) := by
  have h1 := get_answers h ho hg
  have h2 := strlen_answers h ho' hl
  cases e : a.strs k with
  | none => rw [e] at h1 h2; exact .inr ⟨h1, h2⟩
  | some s => rw [e] at h1 h2; exact .inl ⟨s, h1, h2⟩

/-- C10 (sequences of APPENDs): appending pieces one by one leaves their concatenation. -/
theorem C10_appends {reqs : List (Env × List Resp)} {vs : List Bytes} {rs : List Resp} (h : Abs st a) (ho : ∀ q ∈ reqs, q.1.ord.Fair)
    (hr : List.Forall₂ (fun q v => Request q.2 b!"append" [k, v]) reqs vs) (hne : reqs ≠ []) (hs : serve st reqs = .ok (st', rs)) :
    Abs st' (a.setStr k ((a.strs k).getD [] ++ vs.flatten)) := by
  have key : ∀ {reqs : List (Env × List Resp)} {vs : List Bytes} {rs : List Resp} {st : State} {a : DB} {w : Bytes}, Abs st a →
      (∀ q ∈ reqs, q.1.ord.Fair) → List.Forall₂ (fun q v => Request q.2 b!"append" [k, v]) reqs vs → a.strs k = some w →
      serve st reqs = .ok (st', rs) → Abs st' (a.setStr k (w ++ vs.flatten)) := by
    intro reqs vs rs st a w h ho hr hw hs
    induction hr generalizing st a rs w with
    | nil =>
      simp [serve] at hs; obtain ⟨rfl, rfl⟩ := hs
      have : a.setStr k (w ++ [].flatten) = a := by
        simp only [List.flatten_nil, List.append_nil]
        unfold DB.setStr; rw [← hw, Function.update_eq_self]
      rw [this]; exact h
    | @cons q v reqs vs h1 _ ih =>
      obtain ⟨env, objs⟩ := q
      obtain ⟨st1, e1, a1⟩ := (C10_append h (ho (env, objs) (by simp)) h1).1 w hw
      simp only [serve, e1] at hs
      cases hs2 : serve st1 reqs with
      | panic => rw [hs2] at hs; simp at hs
      | diverge => rw [hs2] at hs; simp at hs
      | ok p =>
        obtain ⟨st2, rs2⟩ := p
        rw [hs2] at hs; simp at hs
        obtain ⟨rfl, rfl⟩ := hs
        have := ih a1 (fun q hq => ho q (by simp [hq])) (w := w ++ v) (by simp [DB.setStr]) hs2
        simpa [DB.setStr] using this
  cases hr with
  | nil => exact absurd rfl hne
  | @cons q v reqs vs h1 h2 =>
    obtain ⟨env, objs⟩ := q
    cases e : a.strs k with
    | some w => simpa [e] using key h ho (.cons (a := (env, objs)) h1 h2) e hs
    | none =>
      obtain ⟨st1, e1, a1⟩ := (C10_append h (ho (env, objs) (by simp)) h1).2 e
      simp only [serve, e1] at hs
      cases hs2 : serve st1 reqs with
      | panic => rw [hs2] at hs; simp at hs
      | diverge => rw [hs2] at hs; simp at hs
      | ok p =>
        obtain ⟨st2, rs2⟩ := p
        rw [hs2] at hs; simp at hs
        obtain ⟨rfl, rfl⟩ := hs
        have := key a1 (fun q hq => ho q (by simp [hq])) h2 (w := v) (by simp [DB.setStr]) hs2
        simpa [DB.setStr] using this

/-- The hypotheses can be met, and the theorem gives the expected reply: APPEND t "!" on "hello". -/
example : ∃ st st', Reachable st ∧ handle env0 st (req [b!"append", b!"t", b!"!"]) = .ok (st', .int 6) := by
  obtain ⟨st, hr, ha⟩ := sample_reachable
  obtain ⟨st', e, -⟩ := (C10_append ha env0_fair (objs := req [b!"append", b!"t", b!"!"]) (k := b!"t") (v := b!"!") (request_req _)).1 b!"hello" rfl
  exact ⟨st, st', hr, e⟩

/-! ## C11 -/

/-- C11: GETRANGE replies the bytes of the value (empty if missing) at the positions of the window, in order, and the empty string when
the two indices denote no window. Nothing changes. `i` and `j` are the first and last position. -/
theorem C11_getrange {l r : Bytes} {x y : Int} (h : Abs st a) (ho : env.ord.Fair) (hr : Request objs b!"getrange" [k, l, r])
    (hl : IsInt l x) (hy : IsInt r y) :
    let s := (a.strs k).getD []
    (∀ i j : Nat, Window x y s.length i j → ∃ t, Answers env st objs a (.bulk t) ∧ t.length = j + 1 - i ∧ ∀ p < t.length, t[p]? = s[i + p]?) ∧
    ((¬ ∃ i j : Nat, Window x y s.length i j) → Answers env st objs a (.bulk [])) := by
  intro s
  obtain ⟨out, hs, hob⟩ := handle_refines h ho (c := .getrange k x y) ⟨l, r, hr, hl, hy⟩
  simp only [Step] at hs
  constructor
  · intro i j hw
    rcases hs with ⟨i', j', hw', rfl⟩ | ⟨hn, -⟩
    · change Window x y s.length i' j' at hw'
      have e1 : i' = i ∧ j' = j := by unfold Window Denotes at hw hw'; omega
      obtain ⟨rfl, rfl⟩ := e1
      have hb : i' ≤ j' ∧ j' < s.length := by unfold Window Denotes at hw; omega
      refine ⟨_, hob, ?_, fun p hp => ?_⟩
      · simp only [slice, List.length_take, List.length_drop]; show min _ (s.length - _) = _; omega
      · have hp' : p < j' + 1 - i' := by
          simp only [slice, List.length_take, List.length_drop] at hp; omega
        simp only [slice]
        rw [List.getElem?_take_of_lt (by omega), List.getElem?_drop]
        rfl
    · exact absurd ⟨i, j, hw⟩ hn
  · intro hn
    rcases hs with ⟨i', j', hw', rfl⟩ | ⟨-, rfl⟩
    · exact absurd ⟨i', j', hw'⟩ hn
    · exact hob

/-- The hypotheses can be met: GETRANGE t 1 -2 on "hello" has the window 1..3; GETRANGE t 3 1 has none. -/
example : ∃ st, Reachable st ∧ Abs st sampleDB ∧ Request (req [b!"getrange", b!"t", b!"1", b!"-2"]) b!"getrange" [b!"t", b!"1", b!"-2"] ∧
    IsInt b!"1" 1 ∧ IsInt b!"-2" (-2) ∧ sampleDB.strs b!"t" = some b!"hello" ∧ Window 1 (-2) 5 1 3 ∧ ¬ ∃ i j : Nat, Window 3 1 5 i j := by
  obtain ⟨st, hr, ha⟩ := sample_reachable
  refine ⟨st, hr, ha, request_req _, isInt_iff.2 (by decide), isInt_iff.2 (by decide), rfl, ?_, ?_⟩
  · unfold Window Denotes; omega
  · rintro ⟨i, j, hw⟩; unfold Window Denotes at hw; omega

/-! ## C12 -/

/-- C12 (MSET): MSET is answered OK and has the same effect as the single SETs, in order; those are answered OK too. -/
theorem C12_mset {ks vs : List Bytes} {reqs : List (Env × List Resp)} (h : Abs st a) (ho : env.ord.Fair) (hl : ks.length = vs.length)
    (hne : ks ≠ []) (hr : Request objs b!"mset" (weave ks vs)) (hf : ∀ q ∈ reqs, q.1.ord.Fair)
    (hq : List.Forall₂ (fun (q : Env × List Resp) (p : Bytes × Bytes) => Request q.2 b!"set" [p.1, p.2]) reqs (ks.zip vs)) :
    ∃ a', Answers env st objs a' (.simple b!"OK") ∧ ∃ st', serve st reqs = .ok (st', reqs.map fun _ => .simple b!"OK") ∧ Abs st' a' := by
  obtain ⟨out, hs, hob⟩ := handle_refines h ho (c := .mset ks vs) ⟨hl, hr⟩
  simp only [Step] at hs
  rw [if_neg hne] at hs
  subst hs
  refine ⟨_, hob, ?_⟩
  clear hob hr hne hl
  generalize ks.zip vs = ps at hq
  induction hq generalizing st a with
  | nil => exact ⟨st, rfl, h⟩
  | @cons q p reqs ps h1 _ ih =>
    obtain ⟨env, objs⟩ := q
    obtain ⟨out, hs, hob⟩ := handle_refines h (hf (env, objs) (by simp)) (c := .set p.1 p.2) h1
    simp only [Step] at hs; subst hs
    obtain ⟨st1, e1, a1⟩ := hob
    obtain ⟨st2, e2, a2⟩ := ih a1 (fun q hq => hf q (by simp [hq]))
    exact ⟨st2, by simp [serve, e1, e2, okReply], a2⟩

/-- C12 (MGET): position by position MGET replies what GET would reply, and changes nothing. -/
theorem C12_mget {ks : List Bytes} (h : Abs st a) (ho : env.ord.Fair) (hne : ks ≠ []) (hr : Request objs b!"mget" ks) :
    ∃ rs, Answers env st objs a (.array rs) ∧
      List.Forall₂ (fun k r => ∀ env' objs', env'.ord.Fair → Request objs' b!"get" [k] → Answers env' st objs' a r) ks rs := by
  obtain ⟨out, hs, hob⟩ := handle_refines h ho (c := .mget ks) ⟨hne, hr⟩
  simp only [Step] at hs; subst hs
  refine ⟨_, hob, ?_⟩
  clear hob hr hne
  induction ks with
  | nil => exact .nil
  | cons k ks ih => exact .cons (fun env' objs' ho' hg => get_answers h ho' hg) ih

/-- C12 (EXISTS): EXISTS replies the number of positions whose key GET does not answer with null, and changes nothing. -/
theorem C12_exists {ks : List Bytes} (h : Abs st a) (ho : env.ord.Fair) (hne : ks ≠ []) (hr : Request objs b!"exists" ks) :
    ∃ bs : List Bool, Answers env st objs a (.int (bs.count true)) ∧
      List.Forall₂ (fun k b => ∀ env' objs', env'.ord.Fair → Request objs' b!"get" [k] →
        (b = true → ∃ v, Answers env' st objs' a (.bulk v)) ∧ (b = false → Answers env' st objs' a .nullBulk)) ks bs := by
  obtain ⟨out, hs, hob⟩ := handle_refines h ho (c := .exist ks) ⟨hne, hr⟩
  simp only [Step] at hs; subst hs
  refine ⟨ks.map fun k => (a.strs k).isSome, ?_, ?_⟩
  · rw [List.count_eq_countP, List.countP_map]
    have : ((fun x => x == true) ∘ fun k => (a.strs k).isSome) = fun k => (a.strs k).isSome := by funext k; simp
    rw [this]; exact hob
  · clear hob hr hne
    induction ks with
    | nil => exact .nil
    | cons k ks ih =>
      refine .cons (fun env' objs' ho' hg => ?_) ih
      have hg := get_answers h ho' hg
      cases e : a.strs k with
      | none => rw [e] at hg; exact ⟨by simp [e], fun _ => hg⟩
      | some v => rw [e] at hg; exact ⟨fun _ => ⟨v, hg⟩, by simp [e]⟩

/-- The hypotheses can be met: MSET with a repeated key, and the corresponding SETs. -/
example : Request (req [b!"MSET", b!"k", b!"1", b!"j", b!"2", b!"k", b!"3"]) b!"mset" (weave [b!"k", b!"j", b!"k"] [b!"1", b!"2", b!"3"]) ∧
    List.Forall₂ (fun (q : Env × List Resp) (p : Bytes × Bytes) => Request q.2 b!"set" [p.1, p.2])
      [(env0, req [b!"set", b!"k", b!"1"]), (env0, req [b!"set", b!"j", b!"2"]), (env0, req [b!"set", b!"k", b!"3"])]
      ([b!"k", b!"j", b!"k"].zip [b!"1", b!"2", b!"3"]) ∧
    Request (req [b!"mget", b!"n", b!"nope", b!"n"]) b!"mget" [b!"n", b!"nope", b!"n"] ∧
    Request (req [b!"exists", b!"n", b!"nope", b!"n"]) b!"exists" [b!"n", b!"nope", b!"n"] :=
  ⟨request_req _, .cons (request_req _) (.cons (request_req _) (.cons (request_req _) .nil)), request_req _, request_req _⟩

end Verif.Props
