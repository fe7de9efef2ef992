import Verif.Spec.Fate
import Verif.Props.Pipe

/-! # C67 – no request disappears -/

namespace Verif.Props

open Spec Fut

variable {st : State} {tr : List Pipe.Ev} {s : Pipe.Sys}

theorem fatesOf_append (a b : List Pipe.Ev) : fatesOf (a ++ b) = fatesOf a ++ fatesOf b := by
  induction a with
  | nil => rfl
  | cons e a ih => cases e <;> simp [fatesOf, ih]

/-- Every reply finds its connection. -/
theorem C67_found (h : Exec Pipe.Step (Pipe.new st) tr s) (n : Nat) : .nobody n ∉ tr := by
  refine Exec.inv (P := fun tr _ => Pipe.Ev.nobody n ∉ tr) (by simp) ?_ h
  rintro tr s l s' hex ih hst hm
  rcases List.mem_append.1 hm with hm | hm
  · exact ih hm
  · simp only [List.mem_singleton] at hm
    subst hm
    cases hst with
    | nobody _ m rest hc hw hb hn =>
      have hi := pipeInv hex
      obtain ⟨c, id, o, env, r, -, -, g3, rfl⟩ := hi.resp n m (by simp [hb])
      have := hn id r (parseResponse_responseMap id r)
      rw [(hi.ids id c).2 g3] at this
      cases this

set_option maxHeartbeats 4000000 in
theorem fate_count (h : Exec Pipe.Step (Pipe.new st) tr s) (n : Nat) :
    cnt s.requests n + cnt s.engine.toList n + cnt s.responses n + cnt s.buffer n + cnt s.worker.toList n + cnt (fatesOf tr) n = cnt (requestsOf tr) n := by
  refine Exec.inv (P := fun tr s => cnt s.requests n + cnt s.engine.toList n + cnt s.responses n + cnt s.buffer n + cnt s.worker.toList n +
    cnt (fatesOf tr) n = cnt (requestsOf tr) n) (by simp [Pipe.new, fatesOf, requestsOf]) ?_ h
  rintro tr s l s' hex ih hst
  have hnb := C67_found (hex.snoc hst)
  cases hst <;> simp only [fatesOf_append, requestsOf_append, requestsOf, fatesOf, List.append_nil, cnt_append, cnt_cons, cnt_nil, Option.toList_none,
    Option.toList_some] <;> grind [cnt_append, cnt_cons, cnt_nil, Option.toList_none, Option.toList_some]

/-- C67: every request read is either still on its way or has met exactly one of its fates, and nothing else has. -/
theorem C67_fate (h : Exec Pipe.Step (Pipe.new st) tr s) :
    ((fatesOf tr).map Prod.fst).Nodup ∧
    (∀ n f, (n, f) ∈ fatesOf tr → (∃ c o, (n, c, o) ∈ requestsOf tr) ∧ ¬ OnItsWay s n) ∧
    ∀ n c o, (n, c, o) ∈ requestsOf tr → OnItsWay s n ∨ ∃ f, (n, f) ∈ fatesOf tr := by
  have hc := fate_count h
  have hr := (pipeInv h).reads
  refine ⟨cnt_nodup.1 fun n => by have := hc n; have := hr n; omega, fun n f hf => ?_, fun n c o hm => ?_⟩
  · have h1 : 0 < cnt (fatesOf tr) n := cnt_pos.2 ⟨f, hf⟩
    have h2 := hc n
    have h3 := hr n
    refine ⟨?_, ?_⟩
    · obtain ⟨⟨c, o⟩, hx⟩ := cnt_pos.1 (show 0 < cnt (requestsOf tr) n by omega)
      exact ⟨c, o, hx⟩
    · rintro (⟨m, hm⟩ | ⟨m, hm⟩ | ⟨m, hm⟩ | ⟨m, hm⟩ | ⟨c, b, hm⟩)
      · have : 0 < cnt s.requests n := cnt_pos.2 ⟨m, hm⟩
        omega
      · have : 0 < cnt s.engine.toList n := cnt_pos.2 ⟨m, by simp [hm]⟩
        omega
      · have : 0 < cnt s.responses n := cnt_pos.2 ⟨m, hm⟩
        omega
      · have : 0 < cnt s.buffer n := cnt_pos.2 ⟨m, hm⟩
        omega
      · have : 0 < cnt s.worker.toList n := cnt_pos.2 ⟨(c, b), by simp [hm]⟩
        omega
  · have h1 : 0 < cnt (requestsOf tr) n := cnt_pos.2 ⟨(c, o), hm⟩
    have h2 := hc n
    by_contra hn
    rw [not_or] at hn
    obtain ⟨hw, hf⟩ := hn
    unfold OnItsWay at hw
    simp only [not_or] at hw
    obtain ⟨w1, w2, w3, w4, w5⟩ := hw
    have z {α : Type} {l : List (Nat × α)} (hz : ¬ ∃ x, (n, x) ∈ l) : cnt l n = 0 := by
      by_contra hp
      exact hz (cnt_pos.1 (by omega))
    have e2 : cnt s.engine.toList n = 0 := z fun ⟨x, hx⟩ => w2 ⟨x, by simpa using hx⟩
    have e5 : cnt s.worker.toList n = 0 := z fun ⟨⟨c, b⟩, hx⟩ => w5 ⟨c, b, by simpa using hx⟩
    have e1 := z w1
    have e3 := z w3
    have e4 := z w4
    have e6 := z hf
    omega

theorem delivers_quiet {tr : List Pipe.Ev} (h : ∀ e ∈ tr, Delivers e) : requestsOf tr = [] ∧ executedOf tr = [] := by
  induction tr with
  | nil => exact ⟨rfl, rfl⟩
  | cons e tr ih =>
    obtain ⟨h1, h2⟩ := ih fun e he => h e (by simp [he])
    have := h e (by simp)
    cases e <;> simp_all [Delivers, requestsOf, executedOf]

/-- The response worker writes out everything it has. -/
theorem drained (h : Exec Pipe.Step (Pipe.new st) tr s) (hc : s.crashed = false) :
    ∃ tr' s', Exec Pipe.Step s tr' s' ∧ s' = { s with buffer := [], worker := none } ∧ (∀ e ∈ tr', Delivers e) ∧
      (∀ n m, (n, m) ∈ s.buffer → ∃ c b, .wrote c n b ∈ tr') ∧ ∀ n c b, s.worker = some (n, c, b) → .wrote c n b ∈ tr' := by
  generalize hl : s.buffer = l
  induction l generalizing tr s with
  | nil =>
    cases hw : s.worker with
    | none => exact ⟨[], s, .nil, by cases s; simp_all, by simp, by simp, by simp⟩
    | some x =>
      obtain ⟨n, c, b⟩ := x
      exact ⟨[.wrote c n b], _, .one (.write n c b hc hw), by cases s; simp_all, by simp [Delivers], by simp, by simp⟩
  | cons x l ih =>
    obtain ⟨n, m⟩ := x
    have free : ∀ {tr : List Pipe.Ev} {s : Pipe.Sys}, Exec Pipe.Step (Pipe.new st) tr s → s.crashed = false → s.buffer = (n, m) :: l → s.worker = none →
        ∃ tr' s', Exec Pipe.Step s tr' s' ∧ s' = { s with buffer := [], worker := none } ∧ (∀ e ∈ tr', Delivers e) ∧
          ∀ k m', (k, m') ∈ (n, m) :: l → ∃ c b, .wrote c k b ∈ tr' := by
      intro tr s h hc hl hw
      have hi := pipeInv h
      obtain ⟨c, id, o, env, r, -, -, g3, rfl⟩ := hi.resp n m (by simp [hl])
      have st := Pipe.Step.answer n _ l id r c hc hw hl (parseResponse_responseMap id r) ((hi.ids id c).2 g3)
      obtain ⟨tr', s', h1, h2, h3, h4, h5⟩ := ih (h.snoc st) hc rfl
      refine ⟨.answering n :: tr', s', .cons st h1, by rw [h2], by simpa [Delivers] using h3, ?_⟩
      intro k m' hk
      rcases List.mem_cons.1 hk with hk | hk
      · simp only [Prod.mk.injEq] at hk
        exact ⟨c, r.encode, by simp [h5 n c _ rfl, hk.1]⟩
      · obtain ⟨c, b, hb⟩ := h4 k m' hk
        exact ⟨c, b, by simp [hb]⟩
    cases hw : s.worker with
    | none =>
      obtain ⟨tr', s', h1, h2, h3, h4⟩ := free h hc hl hw
      exact ⟨tr', s', h1, h2, h3, h4, by simp⟩
    | some x =>
      obtain ⟨k, c, b⟩ := x
      have st := Pipe.Step.write k c b hc hw
      obtain ⟨tr', s', h1, h2, h3, h4⟩ := free (h.snoc st) hc hl rfl
      refine ⟨.wrote c k b :: tr', s', .cons st h1, by rw [h2], by simpa [Delivers] using h3, fun n' m' hm => ?_, ?_⟩
      · obtain ⟨c, b, hb⟩ := h4 n' m' hm
        exact ⟨c, b, by simp [hb]⟩
      · intro n' c' b' e
        simp only [Option.some.injEq, Prod.mk.injEq] at e
        simp [e]

theorem writtenOf_mem {tr : List Pipe.Ev} {c n : Nat} {b : Bytes} : .wrote c n b ∈ tr ↔ (n, c, b) ∈ writtenOf tr := by
  induction tr with
  | nil => simp [writtenOf]
  | cons e tr ih => cases e <;> simp [writtenOf, ih] <;> grind

/-- What is written for an executed request is its reply. -/
theorem wrote_reply (h : Exec Pipe.Step (Pipe.new st) tr s) {n c : Nat} {env : Env} {r : Resp} {b : Bytes} (hx : (n, env, r) ∈ executedOf tr)
    (hw : .wrote c n b ∈ tr) : b = r.encode := by
  obtain ⟨o, env', r', -, g2, rfl⟩ := (pipeInv h).wrote n c b (writtenOf_mem.1 hw)
  have := List.inj_on_of_nodup_map (C46_once h).2.1 g2 hx rfl
  simp only [Prod.mk.injEq] at this
  rw [this.2.2]

/-- C67: as long as the process lives, every request that was executed and not lost can still be answered, on the connection it came from, by the
response worker alone: no further request has to come, none has to be executed, and no reply has to be lost or refused. -/
theorem C67_deliverable (h : Exec Pipe.Step (Pipe.new st) tr s) (hc : s.crashed = false) {n : Nat} {env : Env} {r : Resp} (hx : (n, env, r) ∈ executedOf tr)
    (hf : ∀ f, (n, f) ∉ fatesOf tr) :
    ∃ tr' s' c o, Exec Pipe.Step s tr' s' ∧ (∀ e ∈ tr', Delivers e) ∧ (n, c, o) ∈ requestsOf tr ∧ .wrote c n r.encode ∈ tr' := by
  suffices ∃ tr' s' c b, Exec Pipe.Step s tr' s' ∧ (∀ e ∈ tr', Delivers e) ∧ .wrote c n b ∈ tr' by
    obtain ⟨tr', s', c, b, h1, h2, h4⟩ := this
    have := wrote_reply (h.append h1) (n := n) (c := c) (b := b) (env := env) (r := r) (by simp [executedOf_append, hx]) (by simp [h4])
    obtain ⟨o1, -, -, k1, -, -⟩ := (pipeInv (h.append h1)).wrote n c b (writtenOf_mem.1 (List.mem_append_right _ h4))
    rw [requestsOf_append, (delivers_quiet h2).1, List.append_nil] at k1
    exact ⟨tr', s', c, o1, h1, h2, k1, this ▸ h4⟩
  have hi := pipeInv h
  have h1 : 0 < cnt (executedOf tr) n := cnt_pos.2 ⟨(env, r), hx⟩
  have h2 := hi.one n
  have h3 := hi.reads n
  obtain ⟨c, o, -, g1, -⟩ := hi.exe _ _ _ hx
  rcases (C67_fate h).2.2 n c o g1 with hw | ⟨f, hw⟩
  · obtain ⟨tr1, s1, d1, d2, d3, d4, d5⟩ := drained h hc
    rcases hw with ⟨m, hm⟩ | ⟨m, hm⟩ | ⟨m, hm⟩ | ⟨m, hm⟩ | ⟨c', b, hm⟩
    · have : 0 < cnt s.requests n := cnt_pos.2 ⟨m, hm⟩
      omega
    · have : 0 < cnt s.engine.toList n := cnt_pos.2 ⟨m, by simp [hm]⟩
      omega
    · obtain ⟨before, after, hr⟩ := List.append_of_mem hm
      subst d2
      have st := Pipe.Step.queue (s := { s with buffer := [], worker := none }) n m before after hc hr (Nat.zero_lt_succ 99)
      obtain ⟨tr2, s2, e1, -, e3, e4, -⟩ := drained ((h.append d1).snoc st) hc
      obtain ⟨c', b, e⟩ := e4 n m (by simp)
      refine ⟨_, s2, c', b, (d1.snoc st).append e1, ?_, by simp [e]⟩
      intro x hx
      simp only [List.mem_append, List.mem_singleton] at hx
      rcases hx with (hx | rfl) | hx
      · exact d3 x hx
      · trivial
      · exact e3 x hx
    · obtain ⟨c', b, e⟩ := d4 n m hm
      exact ⟨tr1, s1, c', b, d1, d3, e⟩
    · exact ⟨tr1, s1, c', b, d1, d3, d5 _ _ _ hm⟩
  · exact absurd hw (hf f)

/-- C67: a request the engine has not been told about yet can still get the reply that executing it now gives, when the engine is idle and executing
it does not kill the process. -/
theorem C67_answerable (h : Exec Pipe.Step (Pipe.new st) tr s) (hc : s.crashed = false) (he : s.engine = none) {n c : Nat} {o : Resp} {objs : List Resp}
    (hr : (n, c, o) ∈ requestsOf tr) (ho : ArrayOf o objs) (hw : ∃ m, (n, m) ∈ s.requests) {env : Env} {db : State} {r : Resp}
    (hh : handle env s.db objs = .ok (db, r)) : ∃ tr' s', Exec Pipe.Step s tr' s' ∧ requestsOf tr' = [] ∧ executedOf tr' = [(n, env, r)] ∧
      .wrote c n r.encode ∈ tr' := by
  have hi := pipeInv h
  obtain ⟨m, hm⟩ := hw
  obtain ⟨c', id, o', g1, g2, rfl⟩ := hi.req n m (by simp [hm])
  have := List.inj_on_of_nodup_map (C46_once h).1 g1 hr rfl
  simp only [Prod.mk.injEq, true_and] at this
  obtain ⟨rfl, rfl⟩ := this
  obtain ⟨before, after, hl⟩ := List.append_of_mem hm
  have s1 := Pipe.Step.take n _ before after hc hl he
  have ha : Pipe.asArray o' = some objs := by
    rcases ho with rfl | ⟨rfl, rfl⟩ <;> rfl
  have s2 := Pipe.Step.execute (s := { s with requests := before ++ after, engine := some (n, Pipe.requestMap id o') }) n _ id objs env db r hc rfl
    (by rw [parseRequest_requestMap, ha]; rfl) hh
  have h2 := (h.snoc s1).snoc s2
  have hcnt := fate_count h n
  have hrd := hi.reads n
  have hp : 0 < cnt s.requests n := cnt_pos.2 ⟨_, hm⟩
  obtain ⟨tr', s', c'', -, d1, d2, -, d4⟩ := C67_deliverable (n := n) (env := env) (r := r) h2 hc (by simp [executedOf_append, executedOf]) (by
    intro f hf
    simp only [fatesOf_append, fatesOf, List.append_nil] at hf
    have : 0 < cnt (fatesOf tr) n := cnt_pos.2 ⟨f, hf⟩
    omega)
  refine ⟨[.taken n] ++ [.executed n env r] ++ tr', s', ((Exec.one s1).snoc s2).append d1, by simp [requestsOf_append, requestsOf, (delivers_quiet d2).1],
    by simp [executedOf_append, executedOf, (delivers_quiet d2).2], ?_⟩
  obtain ⟨o1, -, -, k1, -, -⟩ := (pipeInv (h2.append d1)).wrote n c'' _ (writtenOf_mem.1 (List.mem_append_right _ d4))
  have := List.inj_on_of_nodup_map (C46_once (h2.append d1)).1 k1 (show (n, c', o') ∈ _ by simp [requestsOf_append, g1]) rfl
  simp only [Prod.mk.injEq, true_and] at this
  rw [← this.1]
  simp [d4]

/-- Steps still to be made at most. -/
def todo (s : Pipe.Sys) : Nat :=
  5 * s.requests.length + 4 * s.engine.toList.length + 3 * s.responses.length + 2 * s.buffer.length + s.worker.toList.length + (if s.crashed then 0 else 1)

theorem todo_step {s s' : Pipe.Sys} {e : Pipe.Ev} (h : Pipe.Step s e s') (he : ¬ External e) : todo s' < todo s := by
  cases h <;> simp_all [todo, External] <;> omega

theorem todo_exec {s s' : Pipe.Sys} {tr : List Pipe.Ev} (h : Exec Pipe.Step s tr s') (he : ∀ e ∈ tr, ¬ External e) : tr.length + todo s' ≤ todo s := by
  revert he
  refine Exec.inv (P := fun tr s' => (∀ e ∈ tr, ¬ External e) → tr.length + todo s' ≤ todo s) (by simp) ?_ h
  rintro tr s1 l s2 - ih hst he
  have h1 := ih fun e hm => he e (by simp [hm])
  have h2 := todo_step hst (he l (by simp))
  simp only [List.length_append, List.length_cons, List.length_nil]
  omega

set_option maxHeartbeats 4000000 in
theorem fate_length (h : Exec Pipe.Step (Pipe.new st) tr s) :
    s.requests.length + s.engine.toList.length + s.responses.length + s.buffer.length + s.worker.toList.length + (fatesOf tr).length = (requestsOf tr).length := by
  refine Exec.inv (P := fun tr s => s.requests.length + s.engine.toList.length + s.responses.length + s.buffer.length + s.worker.toList.length +
    (fatesOf tr).length = (requestsOf tr).length) (by simp [Pipe.new, fatesOf, requestsOf]) ?_ h
  rintro tr s l s' hex ih hst
  have hnb := C67_found (hex.snoc hst)
  cases hst with
  | nobody n => exact absurd (by simp) (hnb n)
  | _ =>
    clear hnb
    simp_all [fatesOf_append, requestsOf_append, requestsOf, fatesOf] <;> omega

/-- C67: without new requests the server comes to rest: at most five steps per request on its way and perhaps the death of the process are left,
in whatever order the steps are made. -/
theorem C67_bounded (h : Exec Pipe.Step (Pipe.new st) tr s) {tr' : List Pipe.Ev} {s' : Pipe.Sys} (h' : Exec Pipe.Step s tr' s') (he : ∀ e ∈ tr', ¬ External e) :
    tr'.length ≤ 5 * ((requestsOf tr).length - (fatesOf tr).length) + 1 := by
  have h1 := todo_exec h' he
  have h2 := fate_length h
  have h3 : todo s ≤ 5 * ((requestsOf tr).length - (fatesOf tr).length) + 1 := by
    unfold todo
    split <;> omega
  omega

/-- C67: a server at rest has nothing on its way any more, or the process is dead. -/
theorem C67_rest {a0 : DB} (h0 : Abs st a0) (h : Exec Pipe.Step (Pipe.new st) tr s) (ho : ∀ x ∈ executedOf tr, x.2.1.ord.Fair) (hr : ∀ e s', Pipe.Step s e s' → External e) :
    s.crashed = true ∨ ∀ n, ¬ OnItsWay s n := by
  cases hc : s.crashed with
  | true => exact .inl rfl
  | false =>
    refine .inr fun n hw => ?_
    have hi := pipeInv h
    obtain ⟨-, a, -, -, ha⟩ := C46_sequential h0 h ho
    cases he : s.engine with
    | some x =>
      obtain ⟨k, m⟩ := x
      cases hp : Pipe.parseRequest m with
      | none => exact hr _ _ (.ignore k m hc he hp)
      | some y =>
        obtain ⟨id, objs⟩ := y
        cases hh : handle env0 s.db objs with
        | ok z => exact hr _ _ (.execute k m id objs env0 z.1 z.2 hc he hp hh)
        | panic => exact hr _ _ (.crash k m id objs env0 hc he hp hh)
        | diverge => exact C27_no_divergence ha env0_fair hh
    | none =>
      rcases hw with ⟨m, hm⟩ | ⟨m, hm⟩ | ⟨m, hm⟩ | ⟨m, hm⟩ | ⟨c, b, hm⟩
      · obtain ⟨x, y, hl⟩ := List.append_of_mem hm
        exact hr _ _ (.drop n m x y hc hl)
      · simp [he] at hm
      · obtain ⟨x, y, hl⟩ := List.append_of_mem hm
        exact hr _ _ (.unqueue n m x y hc hl)
      · cases hwk : s.worker with
        | some x => exact hr _ _ (.write x.1 x.2.1 x.2.2 hc hwk)
        | none =>
          cases hb : s.buffer with
          | nil => simp [hb] at hm
          | cons x rest =>
            obtain ⟨c, id, o, env, r, -, -, g3, g4⟩ := hi.resp x.1 x.2 (by simp [hb])
            exact hr _ _ (.answer x.1 x.2 rest id r c hc hwk hb (by rw [g4]; exact parseResponse_responseMap id r) ((hi.ids id c).2 g3))
      · exact hr _ _ (.write n c b hc hm)

/-- C67: the server never forgets a connection: every one that was ever made has an entry of its own in the table of clients. -/
theorem C67_kept (h : Exec Pipe.Step (Pipe.new st) tr s) : (∀ c, .connected c ∈ tr → ∃ id, s.clients.get id = some c) ∧
    ∀ id id' c, s.clients.get id = some c → s.clients.get id' = some c → id = id' := by
  have hi := pipeInv h
  refine ⟨fun c hm => ?_, fun id id' c h1 h2 => ?_⟩
  · suffices ∃ id, s.conns c = some id by
      obtain ⟨id, g⟩ := this
      exact ⟨id, (hi.ids id c).2 g⟩
    clear hi
    revert hm
    refine Exec.inv (P := fun tr s => Pipe.Ev.connected c ∈ tr → ∃ id, s.conns c = some id) (by simp) ?_ h
    rintro tr s l s' - ih hst hm
    cases hst <;> grind [upd]
  · have a := (hi.ids id c).1 h1
    have b := (hi.ids id' c).1 h2
    rw [a] at b
    exact Option.some.inj b

/-- The hypotheses of `C67_deliverable` can be met: the reply waits to be queued. -/
example : ∃ tr s env r, Exec Pipe.Step (Pipe.new State.empty) tr s ∧ s.crashed = false ∧ (0, env, r) ∈ executedOf tr ∧ ∀ f, (0, f) ∉ fatesOf tr :=
  ⟨[.connected 7, .read 7 0 (.array (req [b!"get", b!"k"])), .taken 0, .executed 0 env0 .nullBulk], _, env0, .nullBulk,
    .cons (.connect 7 b!"id" rfl rfl (fun _ => by simp [Pipe.new])) (.cons (.read 7 b!"id" _ rfl rfl)
    (.cons (.take 0 _ [] [] rfl rfl rfl) (.one (.execute 0 _ b!"id" (req [b!"get", b!"k"]) env0 _ .nullBulk rfl rfl rfl rfl)))),
    rfl, by simp [executedOf], by simp [fatesOf]⟩

/-- Those of `C67_answerable`, too. -/
example : ∃ tr s db, Exec Pipe.Step (Pipe.new State.empty) tr s ∧ s.crashed = false ∧ s.engine = none ∧ (0, 7, .array (req [b!"get", b!"k"])) ∈ requestsOf tr ∧
    (∃ m, (0, m) ∈ s.requests) ∧ handle env0 s.db (req [b!"get", b!"k"]) = .ok (db, .nullBulk) :=
  ⟨[.connected 7, .read 7 0 (.array (req [b!"get", b!"k"]))], _, _,
    .cons (.connect 7 b!"id" rfl rfl (fun _ => by simp [Pipe.new])) (.one (.read 7 b!"id" _ rfl rfl)), rfl, rfl, by simp [requestsOf], ⟨_, .head _⟩, rfl⟩

/-- Those of `C67_rest`, too: the only request was dropped. -/
example : ∃ tr s, Exec Pipe.Step (Pipe.new State.empty) tr s ∧ requestsOf tr = [(0, 7, .int 5)] ∧ executedOf tr = [] ∧ ∀ e s', Pipe.Step s e s' → External e := by
  refine ⟨[.connected 7, .read 7 0 (.int 5), .dropped 0], _,
    .cons (.connect 7 b!"id" rfl rfl (fun _ => by simp [Pipe.new])) (.cons (.read 7 b!"id" _ rfl rfl) (.one (.drop 0 _ [] [] rfl rfl))), rfl, rfl, ?_⟩
  intro e s' h
  cases h <;> simp_all [External, Pipe.new]

/-- Every fate is met by some request. -/
theorem C67_fates (f : Fate) : ∃ tr s n, Exec Pipe.Step (Pipe.new State.empty) tr s ∧ (n, f) ∈ fatesOf tr := by
  have base (o : Resp) : Exec Pipe.Step (Pipe.new State.empty) [.connected 7, .read 7 0 o] _ :=
    .cons (.connect 7 b!"id" rfl rfl (fun _ => by simp [Pipe.new])) (.one (.read 7 b!"id" o rfl rfl))
  have ran : Exec Pipe.Step (Pipe.new State.empty) _ _ := ((base (.array (req [b!"get", b!"k"]))).snoc (.take 0 _ [] [] rfl rfl rfl)).snoc
    (.execute 0 _ b!"id" (req [b!"get", b!"k"]) env0 _ .nullBulk rfl rfl rfl rfl)
  have back := (ran.snoc (.queue 0 _ [] [] rfl rfl (Nat.zero_lt_succ 99))).snoc (.answer 0 _ [] b!"id" .nullBulk 7 rfl rfl rfl rfl rfl)
  cases f with
  | dropped => exact ⟨_, _, 0, (base (.int 5)).snoc (.drop 0 _ [] [] rfl rfl), by simp [fatesOf]⟩
  | ignored => exact ⟨_, _, 0, ((base (.int 5)).snoc (.take 0 _ [] [] rfl rfl rfl)).snoc (.ignore 0 _ rfl rfl rfl), by simp [fatesOf]⟩
  | unqueued => exact ⟨_, _, 0, ran.snoc (.unqueue 0 _ [] [] rfl rfl), by simp [fatesOf]⟩
  | refused => exact ⟨_, _, 0, back.snoc (.refuse 0 7 _ rfl rfl), by simp [fatesOf]⟩
  | answered => exact ⟨_, _, 0, back.snoc (.write 0 7 _ rfl rfl), by simp [fatesOf]⟩

end Verif.Props
