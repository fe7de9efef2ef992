import Verif.Lemmas.Pipe
import Verif.Props.Conn
import Verif.Props.Request

/-! # C46 – replies go to the requester, at most once -/

namespace Verif.Props

open Spec Fut

variable {st : State} {tr : List Pipe.Ev} {s : Pipe.Sys}

/-- C46: what is written to a connection is the reply to a request that connection read and the engine executed, both before. -/
theorem C46_requester (h : Exec Pipe.Step (Pipe.new st) tr s) {before after : List Pipe.Ev} {c n : Nat} {b : Bytes}
    (he : tr = before ++ .wrote c n b :: after) :
    ∃ o env r, (n, c, o) ∈ requestsOf before ∧ (n, env, r) ∈ executedOf before ∧ b = r.encode := by
  subst he
  rw [show before ++ Pipe.Ev.wrote c n b :: after = (before ++ [.wrote c n b]) ++ after by simp] at h
  obtain ⟨s1, h1, -⟩ := h.split
  obtain ⟨o, env, r, g1, g2, g3⟩ := (pipeInv h1).wrote n c b (by simp [writtenOf_append, writtenOf])
  simp only [requestsOf_append, executedOf_append, requestsOf, executedOf, List.append_nil] at g1 g2
  exact ⟨o, env, r, g1, g2, g3⟩

/-- C46: every request is read once, and executed and answered at most once. -/
theorem C46_once (h : Exec Pipe.Step (Pipe.new st) tr s) :
    ((requestsOf tr).map Prod.fst).Nodup ∧ ((executedOf tr).map Prod.fst).Nodup ∧ ((writtenOf tr).map Prod.fst).Nodup := by
  have hi := pipeInv h
  refine ⟨cnt_nodup.1 hi.reads, cnt_nodup.1 fun n => ?_, cnt_nodup.1 fun n => ?_⟩
  · have := hi.one n; have := hi.reads n; omega
  · have := hi.one n; have := hi.two n; have := hi.reads n; omega

theorem asArray_arrayOf {o : Resp} {objs : List Resp} (h : Pipe.asArray o = some objs) : ArrayOf o objs := by
  cases o <;> simp [Pipe.asArray] at h
  · exact .inl (by rw [h])
  · exact .inr ⟨rfl, h⟩

/-- C46: however requests and replies overlap, the replies are those the abstract machine gives when it is asked the executed requests one after
the other, beginning with what the server stored at its start, and the server stores what that machine stores. -/
theorem C46_sequential {a0 : DB} (h0 : Abs st a0) (h : Exec Pipe.Step (Pipe.new st) tr s) (ho : ∀ x ∈ executedOf tr, x.2.1.ord.Fair) :
    ∃ qs a, List.Forall₂ (fun x objs => ∃ c o, (x.1, c, o) ∈ requestsOf tr ∧ ArrayOf o objs) (executedOf tr) qs ∧
      Trace a0 qs ((executedOf tr).map fun x => x.2.2) a ∧ Abs s.db a := by
  suffices ∃ qs, List.Forall₂ (fun x (q : Env × List Resp) => q.1 = x.2.1 ∧ ∃ c o, (x.1, c, o) ∈ requestsOf tr ∧ ArrayOf o q.2) (executedOf tr) qs ∧
      serve st qs = .ok (s.db, (executedOf tr).map fun x => x.2.2) by
    obtain ⟨qs, h1, h2⟩ := this
    have hq : ∀ q ∈ qs, q.1.ord.Fair := by
      intro q hq
      obtain ⟨i, hi, rfl⟩ := List.getElem_of_mem hq
      have hi' : i < (executedOf tr).length := by rw [h1.length_eq]; exact hi
      have := (List.forall₂_iff_get.1 h1).2 i hi' hi
      simp only [List.get_eq_getElem] at this
      rw [this.1]
      exact ho _ (List.getElem_mem _)
    obtain ⟨a, h3, h4⟩ := serve_trace h0 hq h2
    refine ⟨qs.map Prod.snd, a, ?_, h3, h4⟩
    rw [List.forall₂_map_right_iff]
    exact h1.imp fun _ _ hx => hx.2
  clear ho
  refine Exec.inv (P := fun tr s => ∃ qs, List.Forall₂ (fun x (q : Env × List Resp) => q.1 = x.2.1 ∧ ∃ c o, (x.1, c, o) ∈ requestsOf tr ∧ ArrayOf o q.2)
    (executedOf tr) qs ∧ serve st qs = .ok (s.db, (executedOf tr).map fun x => x.2.2)) ⟨[], .nil, rfl⟩ ?_ h
  rintro tr s l s' hex ⟨qs, h1, h2⟩ hst
  have h1' : List.Forall₂ (fun x (q : Env × List Resp) => q.1 = x.2.1 ∧ ∃ c o, (x.1, c, o) ∈ requestsOf (tr ++ [l]) ∧ ArrayOf o q.2) (executedOf tr) qs :=
    h1.imp fun x q hx => ⟨hx.1, by
      obtain ⟨c, o, g1, g2⟩ := hx.2
      exact ⟨c, o, by simp [requestsOf_append, g1], g2⟩⟩
  cases hst with
  | execute n m id objs env db r hc he hp hh =>
    obtain ⟨c, id', o, g1, g2, rfl⟩ := (pipeInv hex).req n m (by simp [he])
    obtain ⟨rfl, g3⟩ := parseRequest_some hp
    refine ⟨qs ++ [(env, objs)], ?_, ?_⟩
    · simp only [executedOf_append, executedOf]
      exact List.rel_append h1' (.cons ⟨rfl, c, o, by simp [requestsOf_append, g1], asArray_arrayOf g3⟩ .nil)
    · rw [serve_append h2]
      simp [serve, hh, executedOf_append, executedOf]
  | _ => exact ⟨qs, by simpa only [executedOf_append, executedOf, List.append_nil] using h1',
      by simpa only [executedOf_append, executedOf, List.append_nil] using h2⟩

/-- C46: a client that waits for the reply before it sends its next request has its requests executed in order; so do clients that wait for
each other. -/
theorem C46_serial (h : Exec Pipe.Step (Pipe.new st) tr s) {a b e : List Pipe.Ev} {c c' n m : Nat} {w : Bytes} {o : Resp}
    (he : tr = a ++ .wrote c n w :: b ++ .read c' m o :: e) {x y : List (Nat × Env × Resp)} {env : Env} {r : Resp}
    (hx : executedOf tr = x ++ (m, env, r) :: y) : ∃ env' r', (n, env', r') ∈ x := by
  have hm : m ∉ (executedOf (a ++ .wrote c n w :: b)).map Prod.fst := by
    intro hm
    have hh := h
    rw [he] at hh
    obtain ⟨s1, h1, -⟩ := hh.split
    obtain ⟨⟨m', env', r'⟩, g, rfl⟩ := List.mem_map.1 hm
    obtain ⟨c1, o1, -, g1, -⟩ := (pipeInv h1).exe _ _ _ g
    have hn := (C46_once h).1
    rw [he, requestsOf_append, List.map_append, List.nodup_append] at hn
    exact hn.2.2 _ (List.mem_map_of_mem g1) m' (by simp [requestsOf]) rfl
  have hn : n ∈ (executedOf (a ++ .wrote c n w :: b)).map Prod.fst := by
    obtain ⟨_, env', r', -, g, -⟩ := C46_requester h (c := c) (n := n) (b := w) (before := a) (after := b ++ .read c' m o :: e) (by rw [he]; simp)
    rw [executedOf_append]
    exact List.mem_map.2 ⟨(n, env', r'), by simp [g], rfl⟩
  rw [he, executedOf_append] at hx
  rcases List.append_eq_append_iff.1 hx with ⟨z, hz, -⟩ | ⟨z, hz, hz'⟩
  · obtain ⟨⟨n', env', r'⟩, g, rfl⟩ := List.mem_map.1 hn
    exact ⟨env', r', by rw [hz]; simp [g]⟩
  · cases z with
    | nil =>
      obtain ⟨⟨n', env', r'⟩, g, rfl⟩ := List.mem_map.1 hn
      exact ⟨env', r', by rw [hz] at g; simpa using g⟩
    | cons q z =>
      simp only [List.cons_append, List.cons.injEq] at hz'
      refine absurd ?_ hm
      rw [hz, ← hz'.1]
      simp

/-- C46: a request that is no array is neither executed nor answered. -/
theorem C46_silent (h : Exec Pipe.Step (Pipe.new st) tr s) {n c : Nat} {o : Resp} (hr : (n, c, o) ∈ requestsOf tr) (ho : ¬ ∃ objs, ArrayOf o objs) :
    (∀ env r, (n, env, r) ∉ executedOf tr) ∧ ∀ c' b, (n, c', b) ∉ writtenOf tr := by
  have key : ∀ env r, (n, env, r) ∉ executedOf tr := by
    intro env r hx
    obtain ⟨c', o', objs, g1, g2⟩ := (pipeInv h).exe _ _ _ hx
    have : (n, c', o') = (n, c, o) := by
      have hn := (C46_once h).1
      exact List.inj_on_of_nodup_map hn g1 hr rfl
    simp only [Prod.mk.injEq, true_and] at this
    rw [this.2] at g2
    exact ho ⟨objs, asArray_arrayOf g2⟩
  refine ⟨key, fun c' b hw => ?_⟩
  obtain ⟨_, env, r, -, g, -⟩ := (pipeInv h).wrote _ _ _ hw
  exact key env r g

/-- C46, the order: a client that sends SET and then GET without waiting may have them executed and answered in the other order. -/
theorem C46_reordered (k v : Bytes) : ∃ tr s env, Exec Pipe.Step (Pipe.new State.empty) tr s ∧
    requestsOf tr = [(0, 7, .array (req [b!"set", k, v])), (1, 7, .array (req [b!"get", k]))] ∧
    executedOf tr = [(1, env, .nullBulk), (0, env, .simple b!"OK")] ∧
    writtenOf tr = [(1, 7, b!"$-1\r\n"), (0, 7, b!"+OK\r\n")] := by
  exact ⟨[.connected 7, .read 7 0 (.array (req [b!"set", k, v])), .read 7 1 (.array (req [b!"get", k])), .taken 1, .executed 1 env0 .nullBulk, .taken 0,
    .executed 0 env0 (.simple b!"OK"), .queued 1, .queued 0, .answering 1, .wrote 7 1 (Resp.encode .nullBulk), .answering 0,
    .wrote 7 0 (Resp.encode (.simple b!"OK"))], _, env0,
    .cons (.connect 7 b!"id" rfl rfl (fun _ => by simp [Pipe.new])) (.cons (.read 7 b!"id" _ rfl rfl) (.cons (.read 7 b!"id" _ rfl rfl)
    (.cons (.take 1 _ [] _ rfl rfl rfl) (.cons (.execute 1 _ b!"id" (req [b!"get", k]) env0 _ .nullBulk rfl rfl rfl rfl)
    (.cons (.take 0 _ [] [] rfl rfl rfl) (.cons (.execute 0 _ b!"id" (req [b!"set", k, v]) env0 _ (.simple b!"OK") rfl rfl rfl rfl)
    (.cons (.queue 1 _ [_] [] rfl rfl (Nat.zero_lt_succ 99)) (.cons (.queue 0 _ [] [] rfl rfl (show 1 < 100 by decide))
    (.cons (.answer 1 _ _ b!"id" .nullBulk 7 rfl rfl rfl rfl rfl) (.cons (.write 1 7 _ rfl rfl)
    (.cons (.answer 0 _ [] b!"id" (.simple b!"OK") 7 rfl rfl rfl rfl rfl) (.one (.write 0 7 _ rfl rfl))))))))))))), rfl, rfl, rfl⟩

theorem gone_stays {s s' : Pipe.Sys} {tr : List Pipe.Ev} (h : Exec Pipe.Step s tr s') (h0 : cnt s.requests 0 + cnt s.engine.toList 0 = 0)
    (hn : 0 < s.next) : cnt s'.requests 0 + cnt s'.engine.toList 0 + cnt (executedOf tr) 0 = 0 ∧ 0 < s'.next := by
  refine Exec.inv (P := fun tr s' => cnt s'.requests 0 + cnt s'.engine.toList 0 + cnt (executedOf tr) 0 = 0 ∧ 0 < s'.next) ⟨by simp only [executedOf, cnt_nil]; omega, hn⟩ ?_ h
  rintro tr1 s1 l s2 - ⟨h1, h2⟩ hst
  cases hst <;> simp only [executedOf_append, executedOf, List.append_nil, cnt_append, cnt_cons, cnt_nil, Option.toList_none, Option.toList_some] <;>
    grind [cnt_append, cnt_cons, cnt_nil, Option.toList_none, Option.toList_some]

/-- C46, the delivery: a request may be lost, and the client then never gets a reply although the connection is fine. -/
theorem C46_lost (o : Resp) : ∃ tr s, Exec Pipe.Step (Pipe.new State.empty) tr s ∧ requestsOf tr = [(0, 7, o)] ∧
    ∀ tr' s', Exec Pipe.Step s tr' s' → ∀ c b, (0, c, b) ∉ writtenOf (tr ++ tr') := by
  have h : Exec Pipe.Step (Pipe.new State.empty) [.connected 7, .read 7 0 o, .dropped 0] _ :=
    .cons (.connect 7 b!"id" rfl rfl (fun _ => by simp [Pipe.new])) (.cons (.read 7 b!"id" _ rfl rfl) (.one (.drop 0 _ [] [] rfl rfl)))
  refine ⟨_, _, h, rfl, fun tr' s' h' c b hw => ?_⟩
  obtain ⟨_, env, r, -, g, -⟩ := (pipeInv (h.append h')).wrote _ _ _ hw
  have h0 := (gone_stays h' rfl Nat.zero_lt_one).1
  have : 0 < cnt (executedOf tr') 0 := cnt_pos.2 ⟨(env, r), by simpa [executedOf] using g⟩
  omega

/-- The hypotheses of `C46_silent` can be met: a client sends `:5`. -/
example : ∃ tr s, Exec Pipe.Step (Pipe.new State.empty) tr s ∧ (0, 7, .int 5) ∈ requestsOf tr ∧ ¬ ∃ objs, ArrayOf (.int 5) objs :=
  ⟨[.connected 7, .read 7 0 (.int 5), .taken 0, .ignored 0], _,
    .cons (.connect 7 b!"id" rfl rfl (fun _ => by simp [Pipe.new])) (.cons (.read 7 b!"id" _ rfl rfl)
    (.cons (.take 0 _ [] [] rfl rfl rfl) (.one (.ignore 0 _ rfl rfl rfl)))), by simp [requestsOf], by rintro ⟨objs, h | h⟩ <;> simp at h⟩

/-- The hypotheses of `C46_serial` can be met: one client waits for the reply to its first request. -/
example : ∃ tr s a b e w o x y env r, Exec Pipe.Step (Pipe.new State.empty) tr s ∧ tr = a ++ .wrote 7 0 w :: b ++ .read 7 1 o :: e ∧
    executedOf tr = x ++ (1, env, r) :: y ∧ (∀ x ∈ executedOf tr, x.2.1.ord.Fair) := by
  refine ⟨[.connected 7, .read 7 0 (.array (req [b!"get", b!"k"])), .taken 0, .executed 0 env0 .nullBulk, .queued 0, .answering 0,
    .wrote 7 0 (Resp.encode .nullBulk), .read 7 1 (.array (req [b!"get", b!"k"])), .taken 1, .executed 1 env0 .nullBulk], _,
    [.connected 7, .read 7 0 (.array (req [b!"get", b!"k"])), .taken 0, .executed 0 env0 .nullBulk, .queued 0, .answering 0], [],
    [.taken 1, .executed 1 env0 .nullBulk], _, _, [(0, env0, .nullBulk)], [], _, _,
    .cons (.connect 7 b!"id" rfl rfl (fun _ => by simp [Pipe.new])) (.cons (.read 7 b!"id" _ rfl rfl)
    (.cons (.take 0 _ [] [] rfl rfl rfl) (.cons (.execute 0 _ b!"id" (req [b!"get", b!"k"]) env0 _ .nullBulk rfl rfl rfl rfl)
    (.cons (.queue 0 _ [] [] rfl rfl (Nat.zero_lt_succ 99)) (.cons (.answer 0 _ [] b!"id" .nullBulk 7 rfl rfl rfl rfl rfl) (.cons (.write 0 7 _ rfl rfl)
    (.cons (.read 7 b!"id" _ rfl rfl) (.cons (.take 1 _ [] [] rfl rfl rfl)
    (.one (.execute 1 _ b!"id" (req [b!"get", b!"k"]) env0 _ .nullBulk rfl rfl rfl rfl)))))))))), rfl, rfl, ?_⟩
  intro x hx
  simp only [executedOf, List.mem_cons, List.not_mem_nil, or_false] at hx
  rcases hx with rfl | rfl <;> exact env0_fair

end Verif.Props
