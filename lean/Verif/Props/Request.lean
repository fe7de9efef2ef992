import Verif.Lemmas.Frame
import Verif.Lemmas.Sample

/-! # C25–C29 – what a request may do, in outline

Every theorem speaks about a server state `st` that stores an abstract database `a` (`Abs st a`). All states that can arise do
(`reachable_abs`), and store only one (`abs_unique`). `env.ord.Fair` says that the Go runtime iterates over a map in some order of its
keys. -/

namespace Verif.Props

open Verif Spec

variable {env : Env} {st st' : State} {a : DB} {objs : List Resp}

/-! ## C25 -/

theorem folds_fun {n w w' : Bytes} (h : Folds n w) (h' : Folds n w') : w = w' := (folds_toLower h).symm.trans (folds_toLower h')

theorem calls_fun {name name' : Bytes} {os os' : List Resp} (h : Calls objs name os) (h' : Calls objs name' os') :
    name = name' ∧ os = os' := by
  obtain ⟨o, n, rfl, h1, h2⟩ := h
  obtain ⟨o', n', e, h3, h4⟩ := h'
  cases e
  have : n = n' := by have := (text_of h1).symm.trans (text_of h3); simpa using this
  subst this
  exact ⟨folds_fun h2 h4, rfl⟩

/-- C25 (frame): a request changes only keys it names as keys to write, each in the namespace the command belongs to. -/
theorem C25_frame {r : Resp} (h : Abs st a) (ho : env.ord.Fair) (hh : handle env st objs = .ok (st', r)) :
    ∃ a', Abs st' a' ∧
      (∀ k, ¬ Writes .str objs k → a'.strs k = a.strs k) ∧ (∀ k, ¬ Writes .list objs k → a'.lists k = a.lists k) ∧
      (∀ k, ¬ Writes .hash objs k → a'.hashes k = a.hashes k) ∧ (∀ k, ¬ Writes .set objs k → a'.sets k = a.sets k) := by
  rcases handle_outline objs h ho with ⟨-, e⟩ | ⟨-, st1, a', r', e, ha, h1, h2, h3, h4, -⟩
  · rw [e] at hh; simp at hh
  · rw [e] at hh; simp at hh; obtain ⟨rfl, rfl⟩ := hh
    exact ⟨a', ha, h1, h2, h3, h4⟩

/-- C25 (read-only commands): a request for a command outside the list of writers changes nothing. -/
theorem C25_read_only {r : Resp} {name : Bytes} {os : List Resp} (h : Abs st a) (ho : env.ord.Fair) (hc : Calls objs name os)
    (hn : name ≠ b!"mset" ∧ ∀ sp, name ∉ writers sp) (hh : handle env st objs = .ok (st', r)) : Abs st' a := by
  obtain ⟨a', ha, h1, h2, h3, h4⟩ := C25_frame h ho hh
  have hw : ∀ sp k, ¬ Writes sp objs k := by
    rintro sp k (⟨name', hm, o, os', hc', -⟩ | ⟨rfl, os', i, o, hc', -⟩)
    · exact hn.2 sp ((calls_fun hc hc').1 ▸ hm)
    · exact hn.1 (calls_fun hc hc').1
  have : a' = a := by
    obtain ⟨x1, x2, x3, x4⟩ := a; obtain ⟨y1, y2, y3, y4⟩ := a'
    congr 1
    · funext k; exact h1 k (hw _ k)
    · funext k; exact h2 k (hw _ k)
    · funext k; exact h3 k (hw _ k)
    · funext k; exact h4 k (hw _ k)
  exact this ▸ ha

/-- C25 (namespaces): one request never writes in two namespaces. -/
theorem C25_one_namespace {sp sp' : Space} {k k' : Bytes} (h : Writes sp objs k) (h' : Writes sp' objs k') : sp = sp' := by
  rcases h with ⟨n, hn, o, os, hc, -⟩ | ⟨rfl, os, i, o, hc, -⟩ <;> rcases h' with ⟨n', hn', o', os', hc', -⟩ | ⟨rfl, os', i', o', hc', -⟩
  · obtain ⟨rfl, -⟩ := calls_fun hc hc'
    cases sp <;> cases sp' <;> first | rfl | (exfalso; revert hn hn'; clear hc hc'; simp only [writers]; revert n; decide)
  · obtain ⟨rfl, -⟩ := calls_fun hc hc'
    revert hn; cases sp <;> decide
  · obtain ⟨rfl, -⟩ := calls_fun hc hc'
    revert hn'; cases sp' <;> decide
  · rfl

/-- The hypotheses can be met: in a database holding something of every type, `RPUSH t x` leaves the string stored at the same key `t`
alone. -/
example : ∃ st st' r a', Reachable st ∧ Abs st sampleDB ∧ handle env0 st (req [b!"RPUSH", b!"t", b!"x"]) = .ok (st', r) ∧ Abs st' a' ∧
    a'.strs b!"t" = some b!"hello" ∧ a'.lists b!"t" = some [b!"x"] := by
  obtain ⟨st, hr, ha⟩ := sample_reachable
  obtain ⟨out, hs, hob⟩ := handle_refines ha env0_fair (objs := req [b!"RPUSH", b!"t", b!"x"]) (c := .rpush b!"t" [b!"x"])
    ⟨by decide, request_req _⟩
  simp only [Step] at hs
  rw [if_neg (by decide)] at hs
  subst hs
  obtain ⟨st', e, ha'⟩ := hob
  exact ⟨st, st', _, _, hr, ha, e, ha', rfl, rfl⟩

/-- and `LLEN l` is read-only. -/
example : ∃ st st' r, Reachable st ∧ Abs st sampleDB ∧ handle env0 st (req [b!"Llen", b!"l"]) = .ok (st', r) ∧ Abs st' sampleDB := by
  obtain ⟨st, hr, ha⟩ := sample_reachable
  obtain ⟨out, hs, hob⟩ := handle_refines ha env0_fair (objs := req [b!"Llen", b!"l"]) (c := .llen b!"l") (request_req _)
  simp only [Step] at hs
  subst hs
  obtain ⟨st', e, -⟩ := hob
  obtain ⟨os, hc, -⟩ := request_req (name := b!"llen") (n := b!"Llen") [b!"l"]
  exact ⟨st, st', _, hr, ha, e, C25_read_only ha env0_fair hc ⟨by decide, by intro sp; cases sp <;> decide⟩ e⟩

/-! ## C26

As stated ("a request answered by an error has no effect") the property is false: `HSET key` without fields is answered by an error but
creates an empty hash. -/

/-- C26 (counterexample): on the empty database `HSET h` is answered by an error, and then HKEYS h replies an empty array instead of the
null array it replied before. -/
theorem C26_false : ∃ st st' t, Reachable st ∧ handle env0 st (req [b!"HSET", b!"h"]) = .ok (st', .error t) ∧
    (∃ s, handle env0 st (req [b!"HKEYS", b!"h"]) = .ok (s, .nullArray)) ∧
    ∃ s, handle env0 st' (req [b!"HKEYS", b!"h"]) = .ok (s, .array []) :=
  ⟨State.empty, _, _, reachable_empty, rfl, ⟨_, rfl⟩, ⟨_, rfl⟩⟩

/-- C26 (partial: `HSET key` without fields is excluded): a request answered by an error leaves the stored database exactly as it
was. -/
theorem C26_no_effect_partial {t : Bytes} (h : Abs st a) (ho : env.ord.Fair) (hb : ¬ BareHset objs)
    (hh : handle env st objs = .ok (st', .error t)) : Abs st' a := by
  rcases handle_outline objs h ho with ⟨-, e⟩ | ⟨-, st1, a', r', e, ha, -, -, -, -, ⟨-, rfl | hb'⟩ | ⟨hne, -⟩⟩
  · rw [e] at hh; simp at hh
  · rw [e] at hh; simp at hh; obtain ⟨rfl, rfl⟩ := hh; exact ha
  · exact absurd hb' hb
  · rw [e] at hh; simp at hh; exact absurd hh.2 (hne t)

/-- C26 (what remains): even `HSET key` without fields changes at most whether the hash key exists; its contents stay the same. -/
theorem C26_bare_hset {t : Bytes} {k : Bytes} (h : Abs st a) (ho : env.ord.Fair) (hr : Request objs b!"hset" [k]) (hk : k ≠ [])
    (hh : handle env st objs = .ok (st', .error t)) : Abs st' (a.setHash k (a.hashAt k)) := by
  obtain ⟨out, hs, hob⟩ := handle_refines h ho (c := .hset k [] []) ⟨rfl, hr⟩
  simp only [Step] at hs
  rw [if_neg hk] at hs
  simp only [if_true] at hs
  subst hs
  obtain ⟨r, -, st1, e, ha⟩ := hob
  rw [e] at hh; simp at hh; obtain ⟨rfl, rfl⟩ := hh
  exact ha

/-- The hypotheses can be met: INCR of a key holding text is answered by an error. -/
example : ∃ st st' t, Reachable st ∧ Abs st sampleDB ∧ ¬ BareHset (req [b!"incr", b!"t"]) ∧
    handle env0 st (req [b!"incr", b!"t"]) = .ok (st', .error t) := by
  obtain ⟨st, hr, ha⟩ := sample_reachable
  have hq : Request (req [b!"incr", b!"t"]) b!"incr" [b!"t"] := request_req _
  obtain ⟨o, os, hc, ht⟩ := request_head hq
  obtain ⟨out, hs, hob⟩ := handle_refines ha env0_fair (objs := req [b!"incr", b!"t"]) (c := .incr b!"t" b!"1") (.inr ⟨rfl, .inr ⟨o, os, hc, ht⟩⟩)
  simp only [Step, AddStep] at hs
  have hd : IsInt b!"1" 1 := isInt_iff.2 (by decide)
  have hn : ¬ ∃ v, IsInt b!"hello" v := not_isInt_iff.2 (by decide)
  have hst : sampleDB.strs b!"t" = some b!"hello" := rfl
  rcases hs with ⟨old, v, d, r, s, h1, h2, -⟩ | ⟨h1, -⟩ | ⟨-, h1, -⟩ | ⟨-, -, rfl⟩
  · rw [hst] at h1; cases h1; exact absurd ⟨v, h2⟩ hn
  · exact absurd ⟨1, hd⟩ h1
  · rw [hst] at h1; cases h1
  · obtain ⟨r, her, st', e, -⟩ := hob
    cases her
    refine ⟨st, st', _, hr, ha, ?_, e⟩
    rintro ⟨k, -, os', hc', -⟩
    have := (calls_fun hc hc').1
    exact absurd this (by decide)

/-! ## C27

As stated ("no request crashes the server") the property is false. -/

/-- C27 (counterexample): on the empty database `SADD "" x` kills the server. -/
theorem C27_false : ∃ st objs, Reachable st ∧ handle env0 st objs = .panic :=
  ⟨State.empty, req [b!"SADD", b!"", b!"x"], reachable_empty, rfl⟩

/-- C27 (exact set): a request kills the server exactly when it is `Fatal` for the stored database. -/
theorem C27_crash_iff (h : Abs st a) (ho : env.ord.Fair) : handle env st objs = .panic ↔ Fatal a objs := by
  rcases handle_outline objs h ho with ⟨hf, e⟩ | ⟨hf, st1, a', r', e, -⟩
  · exact ⟨fun _ => hf, fun _ => e⟩
  · exact ⟨fun e' => by rw [e] at e'; simp at e', fun h => absurd h hf⟩

/-- C27 (partial: only non-`Fatal` requests): every other request, in every reachable state and for every iteration order, is answered,
in finite time and without a crash. -/
theorem C27_answered_partial (h : Reachable st) (ho : env.ord.Fair) (hf : ∀ a, Abs st a → ¬ Fatal a objs) :
    ∃ st' r, handle env st objs = .ok (st', r) := by
  obtain ⟨a, ha⟩ := reachable_abs h
  rcases handle_outline objs ha ho with ⟨hf', -⟩ | ⟨-, st1, a', r', e, -⟩
  · exact absurd hf' (hf a ha)
  · exact ⟨st1, r', e⟩

/-- C27: no request makes the server loop for ever. -/
theorem C27_no_divergence (h : Abs st a) (ho : env.ord.Fair) : handle env st objs ≠ .diverge := by
  rcases handle_outline objs h ho with ⟨-, e⟩ | ⟨-, st1, a', r', e, -⟩ <;> rw [e] <;> simp

/-- The exact set matters in both directions: SPOP of the existing but empty set `o` kills the server, SPOP of the missing set does
not. -/
example : ∃ st, Reachable st ∧ handle env0 st (req [b!"spop", b!"o"]) = .panic ∧ ∃ st' r, handle env0 st (req [b!"spop", b!"p"]) = .ok (st', r) := by
  obtain ⟨st, hr, ha⟩ := sample_reachable
  refine ⟨st, hr, (C27_crash_iff ha env0_fair).2 (.inr (.inr (.inl ⟨b!"o", .inl (request_req _), rfl⟩))), ?_⟩
  obtain ⟨out, hs, hob⟩ := handle_refines ha env0_fair (objs := req [b!"spop", b!"p"]) (c := .spop b!"p" none) (request_req _)
  have hn : sampleDB.sets b!"p" = none := rfl
  simp only [Step, hn] at hs
  subst hs
  obtain ⟨st', e, -⟩ := hob
  exact ⟨st', _, e⟩

/-! ## C28 -/

/-- C28 (shape): a request that does not kill the server gets one reply, an error or of the type documented for its command. -/
theorem C28_shape {r : Resp} (h : Abs st a) (ho : env.ord.Fair) (hh : handle env st objs = .ok (st', r)) :
    (∃ t, r = .error t) ∨ ∃ name os, Calls objs name os ∧ Shape name os.length r := by
  rcases handle_outline objs h ho with ⟨-, e⟩ | ⟨-, st1, a', r', e, -, -, -, -, -, ⟨ht, -⟩ | ⟨-, hsh⟩⟩
  · rw [e] at hh; simp at hh
  · rw [e] at hh; simp at hh; obtain ⟨rfl, rfl⟩ := hh; exact .inl ht
  · rw [e] at hh; simp at hh; obtain ⟨rfl, rfl⟩ := hh; exact .inr hsh

/-- C28 (one reply each): a history of requests that does not kill the server gets as many replies, in order: the i-th reply is the one
the i-th request gets in the state its predecessors lead to. -/
theorem C28_one_reply_each {reqs : List (Env × List Resp)} {rs : List Resp} (hs : serve st reqs = .ok (st', rs)) :
    rs.length = reqs.length ∧ ∀ (i : Nat) q, reqs[i]? = some q → ∃ s s' r, rs[i]? = some r ∧
      serve st (reqs.take i) = .ok (s, rs.take i) ∧ handle q.1 s q.2 = .ok (s', r) := by
  induction reqs generalizing st rs with
  | nil => simp [serve] at hs; simp [hs.2]
  | cons q reqs ih =>
    obtain ⟨env, objs⟩ := q
    simp only [serve] at hs
    cases hh : handle env st objs with
    | panic => rw [hh] at hs; simp at hs
    | diverge => rw [hh] at hs; simp at hs
    | ok p =>
      obtain ⟨st1, r⟩ := p
      rw [hh] at hs
      simp only at hs
      cases hs2 : serve st1 reqs with
      | panic => rw [hs2] at hs; simp at hs
      | diverge => rw [hs2] at hs; simp at hs
      | ok p =>
        obtain ⟨st2, rs2⟩ := p
        rw [hs2] at hs; simp at hs
        obtain ⟨rfl, rfl⟩ := hs
        obtain ⟨h1, h2⟩ := ih hs2
        refine ⟨by simp [h1], fun i q hq => ?_⟩
        cases i with
        | zero => simp at hq; subst hq; exact ⟨st, st1, r, rfl, rfl, hh⟩
        | succ i =>
          obtain ⟨s, s', r', e1, e2, e3⟩ := h2 i q (by simpa using hq)
          refine ⟨s, s', r', by simpa using e1, ?_, e3⟩
          simp only [List.take_succ_cons, serve, hh, e2]

/-- The hypotheses can be met by a history with replies of several shapes. -/
example : ∃ st', serve State.empty [(env0, req [b!"SET", b!"k", b!"v"]), (env0, req [b!"GET", b!"k"]), (env0, req [b!"nonsense"])] =
    .ok (st', [.simple b!"OK", .bulk b!"v", .error b!"ERR no such command"]) := ⟨_, rfl⟩

/-! ## C29 -/

/-- C29 (dispatch): a request that is a documented spelling of a command does what the command is specified to do. -/
theorem C29_dispatch {c : Command} (h : Abs st a) (ho : env.ord.Fair) (hm : Means objs c) :
    ∃ out, Step a c out ∧ Observes env st objs out := handle_refines h ho hm

/-- C29 (unknown name): a name that is no spelling of a command is answered with "no such command" and changes nothing. -/
theorem C29_unknown {o : Resp} {os : List Resp} {n : Bytes} (h : Abs st a) (ht : IsText o n) (hn : ∀ w ∈ commandNames, ¬ Folds n w) :
    Answers env st (o :: os) a (.error b!"ERR no such command") := by
  refine ⟨st, ?_, h⟩
  have : keyMap.get (toLower n) = none := by
    rw [GoMap.get_eq_none_iff]
    intro hk
    have hk' : toLower n ∈ commandNames := hk
    exact hn _ hk' (toLower_folds (keyMap_names _ hk))
  simp only [handle, requestCommand, text_of ht, newCommand, this, errorText]

/-- C29 (wrong arguments): a known command whose arguments do not fit its documented syntax is answered with "invalid argument" and
changes nothing. -/
theorem C29_bad_arguments {name : Bytes} {os : List Resp} (h : Abs st a) (hc : Calls objs name os) (hn : name ∈ commandNames)
    (hm : ¬ ∃ c, Means objs c) : Answers env st objs a (.error b!"ERR invalid argument") := by
  refine ⟨st, ?_, h⟩
  obtain ⟨e, he, hh⟩ := handle_bad (env := env) (st := st) hm
  obtain ⟨n, h1, h2⟩ := newCommand_call hc
  have hk : name ∈ keyMap.keys := hn
  obtain ⟨parse, hp⟩ := (GoMap.mem_keys_iff keyMap name).1 hk
  rw [h1, newCommand, h2, hp] at he
  simp only at he
  split at he
  · simp at he; subst he; exact hh
  · simp at he

/-- C29 (malformed): an empty request, or one whose first object is not a string, is answered with an internal error and changes
nothing. -/
theorem C29_malformed (h : Abs st a) (hm : ∀ o os, objs = o :: os → ¬ ∃ n, IsText o n) : ∃ r, InternalError r ∧ Answers env st objs a r := by
  cases objs with
  | nil => exact ⟨_, ⟨_, rfl⟩, st, rfl, h⟩
  | cons o os =>
    have : text o = none := by
      cases ht : text o with
      | none => rfl
      | some n => exact absurd ⟨n, isText_iff.2 ht⟩ (hm o os rfl)
    refine ⟨_, ⟨b!"invalid command name, raw=" ++ o.encode, rfl⟩, st, ?_, h⟩
    simp only [handle, requestCommand, this, errorText]

/-- C29 (case): two spellings of the same name with the same arguments mean the same. -/
theorem C29_case_insensitive {objs' : List Resp} {name : Bytes} {os : List Resp} (h : Calls objs name os) (h' : Calls objs' name os)
    (c : Command) : Means objs c ↔ Means objs' c := by
  obtain ⟨n, h1, h2⟩ := newCommand_call h
  obtain ⟨n', h3, h4⟩ := newCommand_call h'
  rw [← means_iff, ← means_iff, h1, h3]
  unfold newCommand
  rw [h2, h4]

/-- Every spelling in upper and lower case ASCII letters is a spelling. -/
theorem C29_ascii_case {n w : Bytes} (hw : ∀ c ∈ w, c.toNat < 128) (h : n.map lower = w) : Folds n w := by
  subst h
  induction n with
  | nil => exact .nil
  | cons c n ih => exact .char c (lower_small (hw _ (by simp))) (ih fun x hx => hw x (by simp [hx]))

/-- `gEt k` means GET k; `GET` alone is a known command with bad arguments; `GETT` is unknown; `:5` is malformed. -/
example : Means (req [b!"gEt", b!"k"]) (.get b!"k") ∧
    (Calls (req [b!"GET"]) b!"get" [] ∧ b!"get" ∈ commandNames ∧ ¬ ∃ c, Means (req [b!"GET"]) c) ∧
    (IsText (.bulk b!"GETT") b!"GETT" ∧ ∀ w ∈ commandNames, ¬ Folds b!"GETT" w) ∧
    (∀ o os, [Resp.int 5] = o :: os → ¬ ∃ n, IsText o n) := by
  refine ⟨request_req _, ⟨⟨.bulk b!"GET", b!"GET", rfl, .bulk _, (folds_iff (by decide)).1 (by decide)⟩, by decide, ?_⟩, ⟨.bulk _, ?_⟩, ?_⟩
  · rintro ⟨c, hc⟩
    have := means_command hc
    exact absurd this (by intro h; cases h)
  · intro w hw hf
    have := folds_toLower hf
    have h2 : b!"gett" ∈ commandNames := by rw [show b!"gett" = toLower b!"GETT" by decide, this]; exact hw
    exact absurd h2 (by decide)
  · rintro o os h ⟨n, hn⟩
    cases h; cases hn

end Verif.Props
