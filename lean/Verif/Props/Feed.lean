import Verif.Spec.Feed
import Verif.Props.Wire
import Verif.Lemmas.LTS

/-! # C69 – what is read from a connection -/

namespace Verif.Props

open Verif Spec Feed

theorem takenAll_snoc {os : List Resp} {b c : Bytes} {o : Resp} (h : TakenAll os b) (ho : Taken o c) : TakenAll (os ++ [o]) (b ++ c) := by
  induction os generalizing b with
  | nil => cases h; simpa using TakenAll.cons ho .nil
  | cons x xs ih =>
    cases h with
    | cons h1 h2 => simpa using TakenAll.cons h1 (ih h2)

theorem arrivedOf_snoc (tr : List Feed.Ev) (e : Feed.Ev) : arrivedOf (tr ++ [e]) = arrivedOf tr ++ arrivedOf [e] := by simp [arrivedOf]

theorem readOf_snoc (tr : List Feed.Ev) (e : Feed.Ev) : readOf (tr ++ [e]) = readOf tr ++ readOf [e] := by simp [readOf]

/-- C69: the requests read are objects that arrived one after the other, and the rest is still there: no byte is lost, skipped or read twice. -/
theorem C69_requests {tr : List Feed.Ev} {s : Feed.Sys} (h : Exec Feed.Step Feed.new tr s) :
    ∃ used, TakenAll (readOf tr) used ∧ arrivedOf tr = used ++ s.pending := by
  induction h with
  | nil => exact ⟨[], .nil, rfl⟩
  | @snoc tr s s' e h hs ih =>
    obtain ⟨used, h1, h2⟩ := ih
    cases hs with
    | arrive b _ => exact ⟨used, by simpa [readOf] using h1, by rw [arrivedOf_snoc, h2]; simp [arrivedOf]⟩
    | read o rest _ hp =>
      obtain ⟨b, e1, e2⟩ := (C62_read _ _ _).1 hp
      exact ⟨used ++ b, by simpa [readOf] using takenAll_snoc h1 e2, by rw [arrivedOf_snoc, h2, e1]; simp [arrivedOf]⟩
    | finish _ | stop _ _ | leave _ _ _ | crash _ _ => exact ⟨used, by simpa [readOf] using h1, by rw [arrivedOf_snoc, h2]; simp [arrivedOf]⟩

/-- C69: a request that has arrived is read next, whatever follows it. -/
theorem C69_prompt {s : Feed.Sys} (hr : s.pc = .reading) {o : Resp} {b r : Bytes} (hp : s.pending = b ++ r) (ht : Taken o b) :
    (∃ s', Feed.Step s (.read o) s' ∧ s'.pending = r) ∧ ∀ e s', Feed.Step s e s' → ¬ FromClient e → e = .read o ∧ s'.pending = r := by
  have hq : parse s.pending = .ok o r := (C62_read _ _ _).2 ⟨b, hp, ht⟩
  refine ⟨⟨_, .read o r hr hq, rfl⟩, ?_⟩
  intro e s' hs hc
  cases hs with
  | arrive b _ => exact absurd trivial hc
  | finish _ => exact absurd trivial hc
  | read o' rest _ h' =>
    rw [hq] at h'
    cases h'
    exact ⟨rfl, rfl⟩
  | stop _ h' => rw [hq] at h'; cases h'
  | leave _ _ h' => rw [hq] at h'; cases h'
  | crash _ h' => rw [hq] at h'; cases h'

theorem parse_ok_of_prefix {p later : Bytes} {o : Resp} {b r : Bytes} (h : p ++ later = b ++ r) (ht : Taken o b) :
    parse (p ++ later) = .ok o r := (C62_read _ _ _).2 ⟨b, h, ht⟩

theorem hopeless_of_bad {p : Bytes} (h : parse p = .bad) : Hopeless p := by
  intro later o b r he ht
  have := parse_ok_of_prefix he ht
  rw [C03_error_stable _ _ h] at this
  cases this

/-- C69: the server stops reading only if what has arrived can never become a request, whatever else is sent. From then on nothing is read, and the
connection is neither answered nor closed by the goroutine that read from it. -/
theorem C69_garbage {tr : List Feed.Ev} {s : Feed.Sys} (h : Exec Feed.Step Feed.new (tr ++ [.stopped]) s) :
    Hopeless s.pending ∧ ∀ tr' s', Exec Feed.Step s tr' s' → readOf tr' = [] ∧ s'.pc = .stopped ∧ ∀ e ∈ tr', FromClient e := by
  obtain ⟨s1, _, hs⟩ := h.split_snoc
  cases hs with
  | stop hr hb =>
    refine ⟨hopeless_of_bad hb, ?_⟩
    intro tr' s' h'
    refine h'.inv (P := fun tr' s' => readOf tr' = [] ∧ s'.pc = .stopped ∧ ∀ e ∈ tr', FromClient e) ⟨rfl, rfl, by simp⟩ ?_
    rintro tr s e s' _ ⟨h1, h2, h3⟩ hs
    cases hs with
    | arrive b _ => exact ⟨by simp [readOf_snoc, h1]; rfl, h2, fun e he => by
        rcases List.mem_append.1 he with he | he
        · exact h3 e he
        · simp only [List.mem_singleton] at he; subst he; trivial⟩
    | finish _ => exact ⟨by simp [readOf_snoc, h1]; rfl, h2, fun e he => by
        rcases List.mem_append.1 he with he | he
        · exact h3 e he
        · simp only [List.mem_singleton] at he; subst he; trivial⟩
    | read _ _ hr _ => rw [h2] at hr; cases hr
    | stop hr _ => rw [h2] at hr; cases hr
    | leave hr _ _ => rw [h2] at hr; cases hr
    | crash hr _ => rw [h2] at hr; cases hr

theorem ended_iff {tr : List Feed.Ev} {s : Feed.Sys} (h : Exec Feed.Step Feed.new tr s) : s.ended = true ↔ .ended ∈ tr := by
  refine h.inv (P := fun tr s => s.ended = true ↔ Feed.Ev.ended ∈ tr) (by simp [Feed.new]) ?_
  rintro tr s e s' _ ih hs
  cases hs <;> simp_all

/-- C69: the server takes the connection for finished only if the client has closed its side and has not left a whole request behind. -/
theorem C69_end {tr : List Feed.Ev} {s : Feed.Sys} (h : Exec Feed.Step Feed.new (tr ++ [.left]) s) : .ended ∈ tr ∧ Incomplete s.pending := by
  obtain ⟨s1, h1, hs⟩ := h.split_snoc
  cases hs with
  | leave hr he hb =>
    constructor
    · exact (ended_iff h1).1 he
    · intro o b r e ht
      have := (C62_read _ _ _).2 ⟨b, e, ht⟩
      rw [hb] at this
      cases this

/-- C69: that is the last thing that happens on the connection: no byte arrives later, nothing is read, and the client cannot end it again. -/
theorem C69_finished {tr : List Feed.Ev} {s : Feed.Sys} (h : Exec Feed.Step Feed.new (tr ++ [.left]) s) (e : Feed.Ev) (s' : Feed.Sys) :
    ¬ Feed.Step s e s' := by
  obtain ⟨s1, h1, hs⟩ := h.split_snoc
  cases hs with
  | leave hr he hb => intro hs; cases hs <;> simp_all

/-- A client that sends half a request and hangs up. -/
example : ∃ s, Exec Feed.Step Feed.new ([.arrived b!"*1", .ended] ++ [.left]) s ∧ s.pending = b!"*1" :=
  ⟨{ pending := b!"*1", ended := true, pc := .left }, .cons (.arrive _ rfl) (.cons (.finish rfl) (.cons (.leave rfl rfl (by rfl)) .nil)), rfl⟩

/-- What the position says about the bytes. -/
theorem pc_parse {tr : List Feed.Ev} {s : Feed.Sys} (h : Exec Feed.Step Feed.new tr s) :
    (s.pc = .stopped → parse s.pending = .bad) ∧ (s.pc = .crashed → parse s.pending = .panic) ∧
    (s.pc = .left → parse s.pending = .eof ∧ s.ended = true) := by
  refine h.inv (P := fun _ s => (s.pc = .stopped → parse s.pending = .bad) ∧ (s.pc = .crashed → parse s.pending = .panic) ∧
    (s.pc = .left → parse s.pending = .eof ∧ s.ended = true)) (by simp [Feed.new]) ?_
  rintro tr s e s' _ ⟨h1, h2, h3⟩ hs
  cases hs with
  | arrive b he =>
    refine ⟨fun hp => C03_error_stable _ _ (h1 hp), fun hp => ?_, fun hp => ?_⟩
    · have := parse_ext b (s := s.pending) (by rw [h2 hp]; simp)
      rw [this, h2 hp]; rfl
    · rw [(h3 hp).2] at he; cases he
  | finish he => exact ⟨h1, h2, fun hp => ⟨(h3 hp).1, rfl⟩⟩
  | read _ _ hr _ => simp [hr]
  | stop hr hb => simp [hb]
  | leave hr he hb => simp [hb, he]
  | crash hr hb => simp [hb]

/-- C69 (at rest): when the server is done with what has arrived, it waits for the rest of a request, or the client has finished, or nothing can be
made of what arrived, or it has crashed. -/
theorem C69_rest {tr : List Feed.Ev} {s : Feed.Sys} (h : Exec Feed.Step Feed.new tr s) (hr : AtRest s) :
    (s.pc = .reading ∧ Incomplete s.pending ∧ .ended ∉ tr) ∨ (s.pc = .left ∧ Incomplete s.pending ∧ .ended ∈ tr) ∨
    (s.pc = .stopped ∧ Hopeless s.pending) ∨ (s.pc = .crashed ∧ ReachesMinusTwo s.pending) := by
  obtain ⟨h1, h2, h3⟩ := pc_parse h
  have inc : parse s.pending = .eof → Incomplete s.pending := by
    intro hb o b r e ht
    have := (C62_read _ _ _).2 ⟨b, e, ht⟩
    rw [hb] at this
    cases this
  have he := ended_iff h
  cases hp : s.pc with
  | reading =>
    left
    cases hq : parse s.pending with
    | ok o r => exact absurd (hr _ _ (.read o r hp hq)) id
    | eof =>
      refine ⟨rfl, inc hq, fun hm => ?_⟩
      exact absurd (hr _ _ (.leave hp (he.2 hm) hq)) id
    | bad => exact absurd (hr _ _ (.stop hp hq)) id
    | panic => exact absurd (hr _ _ (.crash hp hq)) id
    | stuck => exact absurd hq (parse_not_stuck _)
  | stopped => exact .inr (.inr (.inl ⟨rfl, hopeless_of_bad (h1 hp)⟩))
  | left => exact .inr (.inl ⟨rfl, inc (h3 hp).1, he.1 (h3 hp).2⟩)
  | crashed => exact .inr (.inr (.inr ⟨rfl, (C05_panic_iff _).1 (h2 hp)⟩))

/-- What is left of `p` once every object in front has been read, with the objects. -/
inductive Drain : Bytes → List Resp → Bytes → Prop where
  | nil {p : Bytes} : Incomplete p → Drain p [] p
  | cons {o : Resp} {b p q : Bytes} {os : List Resp} : Taken o b → Drain p os q → Drain (b ++ p) (o :: os) q

theorem drain_det {p : Bytes} {os os' : List Resp} {q q' : Bytes} (h : Drain p os q) (h' : Drain p os' q') : os = os' ∧ q = q' := by
  induction h generalizing os' q' with
  | nil hi =>
    cases h' with
    | nil _ => exact ⟨rfl, rfl⟩
    | cons ht _ => exact absurd ht (hi _ _ _ rfl)
  | @cons o b p q os ht hd ih =>
    generalize e : b ++ p = x at h'
    cases h' with
    | nil hi => exact absurd ht (hi _ _ _ e.symm)
    | @cons o' b' p' q' os' ht' hd' =>
      have h1 := (C62_read (b ++ p) o p).2 ⟨b, rfl, ht⟩
      have h2 := (C62_read (b ++ p) o' p').2 ⟨b', e, ht'⟩
      rw [h1] at h2
      cases h2
      obtain ⟨rfl, rfl⟩ := ih hd'
      exact ⟨rfl, rfl⟩

theorem drain_of {used rest : Bytes} {os : List Resp} (h : TakenAll os used) (hi : Incomplete rest) : Drain (used ++ rest) os rest := by
  induction os generalizing used with
  | nil => cases h; exact .nil hi
  | cons x xs ih =>
    cases h with
    | cons h1 h2 => rw [List.append_assoc]; exact .cons h1 (ih h2)

theorem rest_incomplete {tr : List Feed.Ev} {s : Feed.Sys} (h : Exec Feed.Step Feed.new tr s) (hr : AtRest s) : Incomplete s.pending := by
  rcases C69_rest h hr with h1 | h1 | h1 | h1
  · exact h1.2.1
  · exact h1.2.1
  · intro o b r e
    exact h1.2 [] o b r (by simpa using e)
  · intro o b r e ht
    have := (C62_read _ _ _).2 ⟨b, e, ht⟩
    rw [(C05_panic_iff _).2 h1.2] at this
    cases this

/-- C69: what is read depends only on the bytes sent, not on how they were cut into pieces or when the pieces came: two connections that received the
same bytes have read the same requests once they are at rest, and have stopped at the same place, for the same reason. -/
theorem C69_pieces {tr tr' : List Feed.Ev} {s s' : Feed.Sys} (h : Exec Feed.Step Feed.new tr s) (hr : AtRest s)
    (h' : Exec Feed.Step Feed.new tr' s') (hr' : AtRest s') (ha : arrivedOf tr = arrivedOf tr') (he : .ended ∈ tr ↔ .ended ∈ tr') :
    readOf tr = readOf tr' ∧ s.pending = s'.pending ∧ s.pc = s'.pc := by
  obtain ⟨u, h1, h2⟩ := C69_requests h
  obtain ⟨u', h1', h2'⟩ := C69_requests h'
  have d := drain_of h1 (rest_incomplete h hr)
  have d' := drain_of h1' (rest_incomplete h' hr')
  rw [← h2, ha] at d
  rw [← h2'] at d'
  obtain ⟨e1, e2⟩ := drain_det d d'
  refine ⟨e1, e2, ?_⟩
  have hpc : ∀ {tr s}, Exec Feed.Step Feed.new tr s → AtRest s →
      s.pc = match parse s.pending with
        | .bad => .stopped
        | .panic => .crashed
        | _ => if s.ended then .left else .reading := by
    intro tr s h hr
    obtain ⟨h1, h2, h3⟩ := pc_parse h
    cases hp : s.pc with
    | reading =>
      cases hq : parse s.pending with
      | ok o r => exact absurd (hr _ _ (.read o r hp hq)) id
      | eof =>
        have : ¬ s.ended = true := fun hm => absurd (hr _ _ (.leave hp hm hq)) id
        simp [this]
      | bad => exact absurd (hr _ _ (.stop hp hq)) id
      | panic => exact absurd (hr _ _ (.crash hp hq)) id
      | stuck => exact absurd hq (parse_not_stuck _)
    | stopped => simp [h1 hp]
    | left => simp [(h3 hp).1, (h3 hp).2]
    | crashed => simp [h2 hp]
  have e3 : s.ended = s'.ended := by rw [Bool.eq_iff_iff, ended_iff h, ended_iff h', he]
  rw [hpc h hr, hpc h' hr', e2, e3]

/-- C69: the server comes to rest: without further bytes it does at most one step per pending byte, and one more. -/
theorem C69_settles {s s' : Feed.Sys} {tr : List Feed.Ev} (h : Exec Feed.Step s tr s') (hc : ∀ e ∈ tr, ¬ FromClient e) :
    tr.length ≤ s.pending.length + 1 := by
  have : s'.pending.length + tr.length + (if s'.pc = .reading then 1 else 0) ≤ s.pending.length + 1 := by
    refine h.inv (P := fun tr s' => (∀ e ∈ tr, ¬ FromClient e) →
      s'.pending.length + tr.length + (if s'.pc = .reading then 1 else 0) ≤ s.pending.length + 1) ?_ ?_ hc
    · intro _; simp; split <;> omega
    · intro tr s1 e s2 _ ih hs hc
      have ih := ih fun e he => hc e (by simp [he])
      have hce := hc e (by simp)
      cases hs with
      | arrive b _ => exact absurd trivial hce
      | finish _ => exact absurd trivial hce
      | read o rest hr hp =>
        have := parse_length hp
        simp [hr] at ih ⊢
        omega
      | stop hr _ | leave hr _ _ | crash hr _ =>
        simp [hr] at ih ⊢
        omega
  omega

/-! ### examples -/

/-- Two requests in three pieces, then a third one that is malformed, then a good one that nobody reads. -/
theorem feed_sample : ∃ s, Exec Feed.Step Feed.new
    [.arrived b!"*1\r\n$4\r\nPI", .arrived b!"NG\r\n+OK\r\n:x", .read (.array [.bulk b!"PING"]), .read (.simple b!"OK"), .arrived b!"y\r\n", .stopped,
     .arrived b!"+OK\r\n", .ended] s ∧ s.pc = .stopped ∧ s.pending = b!":xy\r\n+OK\r\n" := by
  refine ⟨⟨b!":xy\r\n+OK\r\n", true, .stopped⟩, ?_, rfl, rfl⟩
  refine .snoc (.snoc (.snoc (.snoc (.snoc (.snoc (.snoc (.snoc .nil (.arrive _ rfl)) (.arrive _ rfl)) (.read _ b!"+OK\r\n:x" rfl ?_))
    (.read _ b!":x" rfl ?_)) (.arrive _ rfl)) (.stop rfl ?_)) (.arrive _ rfl)) (.finish rfl)
  all_goals rfl

example : ∃ s, Exec Feed.Step Feed.new ([.arrived b!"GET a\r\n"] ++ [.stopped]) s ∧ s.pending = b!"GET a\r\n" :=
  ⟨⟨b!"GET a\r\n", false, .stopped⟩, .snoc (.snoc .nil (.arrive _ rfl)) (.stop rfl rfl), rfl⟩

example : ∃ s, Exec Feed.Step Feed.new ([.arrived b!"+OK\r\n$3\r\nab", .ended, .read (.simple b!"OK")] ++ [.left]) s ∧ s.pending = b!"$3\r\nab" :=
  ⟨⟨b!"$3\r\nab", true, .left⟩, .snoc (.snoc (.snoc (.snoc .nil (.arrive _ rfl)) (.finish rfl)) (.read _ b!"$3\r\nab" rfl rfl)) (.leave rfl rfl rfl), rfl⟩

example : ∃ s s' tr, Exec Feed.Step s tr s' ∧ (∀ e ∈ tr, ¬ FromClient e) ∧ tr = [.read (.int 1), .read (.int 2), .stopped] :=
  ⟨⟨b!":1\r\n:2\r\n:\r\n", false, .reading⟩, ⟨b!":\r\n", false, .stopped⟩, _,
    .snoc (.snoc (.snoc .nil (.read _ b!":2\r\n:\r\n" rfl rfl)) (.read _ b!":\r\n" rfl rfl)) (.stop rfl rfl), by simp [FromClient], rfl⟩

example : ∃ s, Exec Feed.Step Feed.new [.arrived b!"+OK\r", .arrived b!"\n:1", .read (.simple b!"OK")] s ∧ AtRest s ∧ s.pending = b!":1" := by
  refine ⟨⟨b!":1", false, .reading⟩, .snoc (.snoc (.snoc .nil (.arrive _ rfl)) (.arrive _ rfl)) (.read _ b!":1" rfl rfl), ?_, rfl⟩
  intro e s' hs
  have hp : parse b!":1" = .eof := rfl
  cases hs with
  | arrive _ _ => trivial
  | finish _ => trivial
  | read _ _ _ h => exact absurd (hp.symm.trans h) (by simp)
  | stop _ h => exact absurd (hp.symm.trans h) (by simp)
  | leave _ h _ => cases h
  | crash _ h => exact absurd (hp.symm.trans h) (by simp)

end Verif.Props
