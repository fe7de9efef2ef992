import Verif.Spec.Desk
import Verif.Props.Full
import Verif.Props.Session

/-! # C85 – users at terminals -/

namespace Verif.Props

open Spec
open Fut (upd)

variable {ω : Nat → Nat} {U : Nat → Bool} {d : Bytes} {st : State}

/-! ### What is on the wire -/

theorem wire_eq (out : List Conn.Out) : Desk.wire out = wireOf out := rfl

theorem wireOf_append (a b : List Conn.Out) : wireOf (a ++ b) = wireOf a ++ wireOf b := by simp [wireOf]

theorem out_grows {x y : Conn.Sys} {ls : List Conn.Ev} (h : Exec Conn.Step x ls y) : x.out <+: y.out := by
  refine h.inv (P := fun _ (y : Conn.Sys) => x.out <+: y.out) (List.prefix_refl _) ?_
  intro tr y l z _ ih hs
  cases hs <;> first | exact ih | exact ih.trans (List.prefix_append _ _)

/-- A byte that begins no object. -/
def Alien (c : UInt8) : Prop := c ≠ 43 ∧ c ≠ 36 ∧ c ≠ 45 ∧ c ≠ 58 ∧ c ≠ 42

theorem alien_parse {c : UInt8} (h : Alien c) (s : Bytes) : parse (c :: s) = .eof ∨ parse (c :: s) = .bad := by
  have h0 : ∀ f, readObject (f + 1) (c :: s) = .eof ∨ readObject (f + 1) (c :: s) = .bad := by
    intro f
    rw [readObject]
    cases ht : readToken (c :: s) with
    | eof => exact .inl rfl
    | bad => exact .inr rfl
    | panic => exact absurd ht (readToken_not_panic _)
    | stuck => exact absurd ht (readToken_not_stuck _)
    | ok t r =>
      obtain ⟨v, rfl, h2, -, -⟩ := readToken_ok ht
      obtain ⟨h1, h2', h3, h4, h5⟩ := h
      cases v with
      | nil =>
        simp only [List.nil_append, List.cons.injEq] at h2
        obtain ⟨rfl, -⟩ := h2
        exact .inr rfl
      | cons x v =>
        simp only [List.cons_append, List.cons.injEq] at h2
        obtain ⟨rfl, -⟩ := h2
        simp [h1, h2', h3, h4, h5]
  exact h0 _

theorem farewell_alien : ∀ x ∈ b!"TTL expired", Alien x := by
  simp only [Alien]; decide

/-- Bytes of a stream that begins with something of the farewell are no object. -/
theorem parse_farewell {x w buf : Bytes} (hx : x <:+ b!"TTL expired") (hne : x ≠ []) (hb : buf <+: x ++ w) :
    parse buf = .eof ∨ parse buf = .bad := by
  cases buf with
  | nil => exact .inl rfl
  | cons c buf =>
    cases x with
    | nil => exact absurd rfl hne
    | cons y x =>
      obtain ⟨z, hz⟩ := hb
      simp only [List.cons_append, List.cons.injEq] at hz
      obtain ⟨rfl, -⟩ := hz
      exact alien_parse (farewell_alien c (hx.subset (by simp))) buf

/-! ### Replies that can be read -/

/-- Every reply comes from the executor. -/
theorem executed_handle {tr : List Pipe.Ev} {p : Pipe.Sys} {a0 : DB} (h0 : Abs st a0) (h : Exec Pipe.Step (Pipe.new st) tr p)
    (ho : ∀ x ∈ executedOf tr, x.2.1.ord.Fair) {n : Nat} {env : Env} {r : Resp} (hx : (n, env, r) ∈ executedOf tr) :
    ∃ c o objs st1 st2 a, (n, c, o) ∈ requestsOf tr ∧ ArrayOf o objs ∧ Abs st1 a ∧ handle env st1 objs = .ok (st2, r) := by
  revert ho n env r
  refine h.inv (P := fun tr _ => (∀ x ∈ executedOf tr, x.2.1.ord.Fair) → ∀ {n : Nat} {env : Env} {r : Resp}, (n, env, r) ∈ executedOf tr →
    ∃ c o objs st1 st2 a, (n, c, o) ∈ requestsOf tr ∧ ArrayOf o objs ∧ Abs st1 a ∧ handle env st1 objs = .ok (st2, r)) (by simp [executedOf]) ?_
  intro tr p e p' hp ih hs ho n env r hx
  have ho' : ∀ x ∈ executedOf tr, x.2.1.ord.Fair := fun x hx => ho x (by rw [executedOf_append]; simp [hx])
  rw [executedOf_append, List.mem_append] at hx
  have old : (n, env, r) ∈ executedOf tr → ∃ c o objs st1 st2 a, (n, c, o) ∈ requestsOf (tr ++ [e]) ∧ ArrayOf o objs ∧ Abs st1 a ∧
      handle env st1 objs = .ok (st2, r) := by
    intro hx
    obtain ⟨c, o, objs, st1, st2, a, g1, g2⟩ := ih ho' hx
    exact ⟨c, o, objs, st1, st2, a, by rw [requestsOf_append]; simp [g1], g2⟩
  rcases hx with hx | hx
  · exact old hx
  · cases hs with
    | execute n' m id objs env' db r' hc he hq hh =>
      simp only [executedOf, List.mem_singleton, Prod.mk.injEq] at hx
      obtain ⟨e1, e2, e3⟩ := hx
      subst e1 e2 e3
      obtain ⟨c, id', o, g1, g2, rfl⟩ := (pipeInv hp).req n m (by simp [he])
      obtain ⟨rfl, g3⟩ := parseRequest_some hq
      obtain ⟨qs, a, -, -, g4⟩ := C46_sequential h0 hp ho'
      exact ⟨c, o, objs, p.db, db, a, by rw [requestsOf_append]; simp [g1], asArray_arrayOf g3, g4, hh⟩
    | _ => simp [executedOf] at hx

/-- A request has one number, and one object. -/
theorem asked_unique {tr : List Net.Ev} {s : Net.Sys} (h : Exec Net.Step (Net.new st) tr s) {c c' n : Nat} {o o' : Resp}
    (h1 : (n, o) ∈ askedBy c tr) (h2 : (n, o') ∈ askedBy c' tr) : c = c' ∧ o = o' := by
  obtain ⟨-, hp, -, -, h5⟩ := net_split h
  rw [mem_askedBy h5] at h1 h2
  have := List.inj_on_of_nodup_map (C46_once hp).1 h1 h2 rfl
  simp only [Prod.mk.injEq, true_and] at this
  exact this

/-- The lines sent, and what is read from them. -/
structure Lines (c : Nat) (ftr : List Full.Ev) (sent : Bytes) (L : List Bytes) : Prop where
  lines : ∀ l ∈ L, Desk.isLine l
  bytes : ∃ reqs, List.Forall₂ (fun l b => Client.formatInput l = .ok b) L reqs ∧ reqs.flatten = (piecesOf c (seenIn ftr)).flatten ++ sent

theorem isLine_bound {l : Bytes} (h : Desk.isLine l) : l.length + 2 < 2 ^ 63 ∧ (10 : UInt8) ∉ l := by
  obtain ⟨m, h1, h2, rfl, -, -⟩ := h
  have h3 : (Client.dropCR m).length ≤ m.length ∧ ∀ x ∈ Client.dropCR m, x ∈ m := by
    unfold Client.dropCR
    split
    · exact ⟨by simp, fun x hx => List.dropLast_subset _ hx⟩
    · exact ⟨Nat.le_refl _, fun x hx => hx⟩
  exact ⟨by omega, fun hx => h1 (h3.2 _ hx)⟩

theorem Lines.asked {c : Nat} {ftr : List Full.Ev} {f : Full.Sys} {sent : Bytes} {L : List Bytes} (h : Lines c ftr sent L)
    (hx : Exec (Full.Step ω) (Full.new d st) ftr f) :
    ∃ wss, List.Forall₂ Words L wss ∧ (askedBy c (seenIn ftr)).map Prod.snd <+: wss.map fun ws => .array (ws.map .bulk) := by
  obtain ⟨n, hn, -⟩ := (C82_parts hx).2.1
  obtain ⟨used, h1, h2⟩ := (C70_streams hn c).1
  obtain ⟨reqs, h3, h4⟩ := h.bytes
  have key : ∃ wss, List.Forall₂ Words L wss ∧ List.Forall₂ Taken (wss.map fun ws => Resp.array (ws.map .bulk)) reqs := by
    have hl := h.lines
    clear h h4
    induction h3 with
    | nil => exact ⟨[], .nil, .nil⟩
    | @cons l b L reqs hb _ ih =>
      obtain ⟨wss, g1, g2⟩ := ih fun l hl' => hl l (by simp [hl'])
      obtain ⟨ws, k1, k2⟩ := C52_received (isLine_bound (hl l (by simp))).1 hb []
      obtain ⟨b', k3, k4⟩ := (C62_read _ _ _).1 k2
      simp only [List.append_nil] at k3
      subst k3
      exact ⟨ws :: wss, .cons k1 g1, .cons k4 g2⟩
  obtain ⟨wss, g1, g2⟩ := key
  exact ⟨wss, g1, taken_prefix h1 g2 (rest := (n.feeds c).pending ++ sent) (by rw [h4, h2, List.append_assoc])⟩

/-- What the server has written to a terminal is a reply that the client can read. -/
theorem answer_framed {a0 : DB} (h0 : Abs st a0) {c : Nat} {ftr : List Full.Ev} {f : Full.Sys} {sent : Bytes} {L : List Bytes} (h : Lines c ftr sent L)
    (hx : Exec (Full.Step ω) (Full.new d st) ftr f) (ho : ∀ x ∈ doneIn (seenIn ftr), x.2.1.ord.Fair ∧ Sized x.2.2) {n : Nat} {b : Bytes}
    (hb : (n, b) ∈ answersTo c (seenIn ftr)) :
    ∃ env r, (n, env, r) ∈ doneIn (seenIn ftr) ∧ b = r.encode ∧ ∀ rest, parse (r.encode ++ rest) = .ok r rest := by
  obtain ⟨k, hn, -⟩ := (C82_parts hx).2.1
  obtain ⟨o, env, r, g1, g2, g3⟩ := (C70_streams hn c).2.2.2 n b hb
  refine ⟨env, r, g2, g3, fun rest => ?_⟩
  obtain ⟨wss, w1, w2⟩ := h.asked hx
  obtain ⟨-, hp, -, -, h5⟩ := net_split hn
  rw [doneIn_eq] at ho g2
  obtain ⟨c', o', objs, st1, st2, a, q1, q2, q3, q4⟩ := executed_handle h0 hp (fun x hx => (ho x hx).1) g2
  obtain ⟨rfl, rfl⟩ := asked_unique hn g1 ((mem_askedBy h5).2 q1)
  have hm : o ∈ wss.map fun ws => Resp.array (ws.map .bulk) := w2.subset (List.mem_map.2 ⟨_, g1, rfl⟩)
  obtain ⟨ws, hw, rfl⟩ := List.mem_map.1 hm
  obtain ⟨l, hl, hlw⟩ : ∃ l ∈ L, Words l ws := by
    obtain ⟨i, hi, rfl⟩ := List.getElem_of_mem hw
    have hi' : i < L.length := by rw [w1.length_eq]; exact hi
    exact ⟨L[i], List.getElem_mem _, (List.forall₂_iff_get.1 w1).2 i hi' hi⟩
  have hobjs : objs = ws.map .bulk := by
    rcases q2 with e | ⟨e, -⟩
    · simpa using e.symm
    · simp at e
  subst hobjs
  exact C55_plain q3 (ho _ g2).1 (forall₂_bulk ws) (fun w hw' hc => (isLine_bound (h.lines l hl)).2 (words_chars hlw w hw' _ hc)) q4 (ho _ g2).2 rest

/-! ### What the client has read -/

/-- Where the client is on the wire: `q` bytes are behind it, those of the first `k` replies and perhaps more; before it are `x`, something of the farewell,
and then what was written later. -/
def Stream (out : List Conn.Out) (t : Desk.Term) (k : Nat) : Prop :=
  ∃ x o1 o2 q, out = o1 ++ o2 ∧ t.pos = q + t.buf.length ∧ (wireOf out).drop q = x ++ wireOf o2 ∧ q ≤ (wireOf out).length ∧ t.buf <+: x ++ wireOf o2 ∧
    (repliesIn o1).length = k ∧ x <:+ b!"TTL expired" ∧ (x ≠ [] → .farewell ∈ o1)

theorem Stream.grow {out out' : List Conn.Out} {t : Desk.Term} {k : Nat} (h : Stream out t k) (hg : out <+: out') : Stream out' t k := by
  obtain ⟨more, rfl⟩ := hg
  obtain ⟨x, o1, o2, q, rfl, h2, h3, h4, h5, h6, h7, h8⟩ := h
  refine ⟨x, o1, o2 ++ more, q, by simp, h2, ?_, ?_, ?_, h6, h7, h8⟩
  · rw [wireOf_append, List.drop_append_of_le_length h4, h3, wireOf_append o2, List.append_assoc]
  · rw [wireOf_append]; simp; omega
  · rw [wireOf_append o2, ← List.append_assoc]; exact h5.trans (List.prefix_append _ _)

theorem Stream.same {out : List Conn.Out} {t t' : Desk.Term} {k : Nat} (h : Stream out t k) (h1 : t'.pos = t.pos) (h2 : t'.buf = t.buf) : Stream out t' k := by
  rw [Stream, h1, h2]; exact h

theorem Stream.took {out : List Conn.Out} {t t' : Desk.Term} {k : Nat} (h : Stream out t k) {b : Bytes} (hb : b <+: (wireOf out).drop t.pos)
    (h1 : t'.pos = t.pos + b.length) (h2 : t'.buf = t.buf ++ b) : Stream out t' k := by
  obtain ⟨x, o1, o2, q, rfl, g2, g3, g4, g5, g6, g7, g8⟩ := h
  refine ⟨x, o1, o2, q, rfl, by rw [h1, h2, g2]; simp; omega, g3, g4, ?_, g6, g7, g8⟩
  obtain ⟨z, hz⟩ := g5
  rw [g2, ← List.drop_drop, g3, ← hz, List.drop_left] at hb
  rw [h2, ← hz]
  exact (List.prefix_append_right_inj _).2 hb

theorem repliesIn_reply (b : Bytes) (o : List Conn.Out) : repliesIn (.reply b :: o) = b :: repliesIn o := rfl

theorem only_farewells {o : List Conn.Out} (h1 : repliesIn o = []) (h2 : o.count .farewell ≤ 1) (h3 : ∀ p, .part p ∉ o) : o = [] ∨ o = [.farewell] := by
  cases o with
  | nil => exact .inl rfl
  | cons a o =>
    cases a with
    | reply b => simp [repliesIn] at h1
    | part p => exact absurd (by simp) (h3 p)
    | farewell =>
      right
      cases o with
      | nil => rfl
      | cons a o =>
        cases a with
        | reply b => simp [repliesIn] at h1
        | part p => exact absurd (by simp) (h3 p)
        | farewell => simp at h2

/-- What the bytes read so far are: not yet an object; none, and there is a farewell on the wire; or the next reply, whole. -/
theorem Stream.verdict {out : List Conn.Out} {t : Desk.Term} {k : Nat} (h : Stream out t k)
    (hf : ∀ b ∈ repliesIn out, ∃ r : Resp, b = r.encode ∧ ∀ rest, parse (r.encode ++ rest) = .ok r rest) (hp : ∀ p, .part p ∉ out) :
    parse t.buf = .eof ∨ (parse t.buf = .bad ∧ .farewell ∈ out) ∨
    ∃ r rest, parse t.buf = .ok r rest ∧ (repliesIn out)[k]? = some r.encode ∧ (∀ more, parse (r.encode ++ more) = .ok r more) ∧
      (out.count .farewell ≤ 1 → (repliesIn out).length ≤ k + 1 → ∀ t' : Desk.Term, t'.pos = t.pos → t'.buf = [] → Stream out t' (k + 1)) := by
  obtain ⟨x, o1, o2, q, rfl, g2, g3, g4, g5, g6, g7, g8⟩ := h
  have cut : ∀ y w : Bytes, y <:+ b!"TTL expired" → y ≠ [] → t.buf <+: y ++ w → .farewell ∈ o1 ++ o2 →
      parse t.buf = .eof ∨ (parse t.buf = .bad ∧ .farewell ∈ o1 ++ o2) := fun y w h1 h2 h3 h4 => (parse_farewell h1 h2 h3).imp_right fun e => ⟨e, h4⟩
  by_cases hx : x = []
  · subst hx
    rw [List.nil_append] at g3 g5
    cases o2 with
    | nil => left; rw [show t.buf = [] by simpa [wireOf] using g5]; rfl
    | cons a o2 =>
      cases a with
      | part p => exact absurd (by simp) (hp p)
      | farewell =>
        rcases cut b!"TTL expired" (wireOf o2) List.suffix_rfl (by decide) g5 (by simp) with e | e
        · exact .inl e
        · exact .inr (.inl e)
      | reply b =>
        obtain ⟨r, rfl, hr⟩ := hf b (by simp [repliesIn])
        have hw : wireOf (.reply r.encode :: o2) = r.encode ++ wireOf o2 := by simp [wireOf]
        rw [hw] at g3 g5
        obtain ⟨y, hy⟩ := g5
        by_cases he : parse t.buf = .eof
        · exact .inl he
        right; right
        have hpe := parse_ext y he
        rw [hy, hr] at hpe
        cases hb : parse t.buf with
        | eof => exact absurd hb he
        | bad => rw [hb] at hpe; cases hpe
        | panic => rw [hb] at hpe; cases hpe
        | stuck => rw [hb] at hpe; cases hpe
        | ok r' rest =>
          rw [hb] at hpe
          simp only [ReadRes.ext, ReadRes.ok.injEq] at hpe
          obtain ⟨rfl, hrest⟩ := hpe
          refine ⟨r, rest, rfl, ?_, hr, fun hc hl t' ht1 ht2 => ?_⟩
          · rw [repliesIn_append, List.getElem?_append_right (by omega), g6]
            simp [repliesIn]
          · have hnone : repliesIn o2 = [] := by
              rw [repliesIn_append, List.length_append, g6, repliesIn_reply, List.length_cons] at hl
              exact List.length_eq_zero_iff.1 (by omega)
            have ho2 : o2 = [] ∨ o2 = [.farewell] := by
              refine only_farewells hnone ?_ fun p h => hp p (by simp [h])
              have : o2.count .farewell ≤ (o1 ++ .reply r.encode :: o2).count .farewell :=
                List.Sublist.count_le _ ((List.sublist_cons_self _ _).trans (List.sublist_append_right _ _))
              omega
            refine ⟨y, o1 ++ .reply r.encode :: o2, [], t.pos, by simp, by simp [ht1, ht2], ?_, ?_, by rw [ht2]; exact List.nil_prefix, ?_, ?_, ?_⟩
            · rw [g2, ← List.drop_drop, g3, ← hy, List.drop_left]; simp [wireOf]
            · have h1 := congrArg List.length g3
              have h2 := congrArg List.length hy
              simp only [List.length_drop, List.length_append] at h1 h2
              omega
            · rw [repliesIn_append, List.length_append, g6, repliesIn_reply, hnone]; rfl
            · have hs : y <:+ wireOf o2 := ⟨rest, hrest.symm⟩
              rcases ho2 with rfl | rfl
              · rw [show y = [] by simpa [wireOf] using hs]; exact List.nil_suffix
              · exact hs
            · intro hne
              rcases ho2 with rfl | rfl
              · exact absurd (by simpa [wireOf] using hrest.symm : rest = [] ∧ y = []).2 hne
              · simp
  · rcases cut x _ g7 hx g5 (by simp [g8 hx]) with e | e
    · exact .inl e
    · exact .inr (.inl e)

/-! ### A terminal -/

/-- What is so at a terminal. `L` are the lines sent, `R` the replies shown. -/
structure TermInv (c : Nat) (ftr : List Full.Ev) (f : Full.Sys) (t : Desk.Term) (L : List Bytes) (R : List Resp) : Prop where
  lines : Lines c ftr t.sent L
  order : (answersTo c (seenIn ftr)).map Prod.fst <+: (askedBy c (seenIn ftr)).map Prod.fst
  count : L.length ≤ R.length + 1 ∧ (t.pc = .top ∨ t.pc = .asking → L.length = R.length) ∧ (t.pc = .waiting → L.length = R.length + 1)
  shown : ∀ (i : Nat) r, R[i]? = some r → ∃ n env, (answersTo c (seenIn ftr))[i]? = some (n, r.encode) ∧ (n, env, r) ∈ doneIn (seenIn ftr)
  here : t.pc ≠ .over → .client .gone ∉ lineOf c ftr ∧ .feed c .ended ∉ seenIn ftr
  stream : t.pc ≠ .over → Stream (f.lines c).out t R.length
  idle : t.pc = .top ∨ t.pc = .asking → t.buf = []

theorem TermInv.fewer {c : Nat} {ftr : List Full.Ev} {f : Full.Sys} {t : Desk.Term} {L : List Bytes} {R : List Resp} (h : TermInv c ftr f t L R)
    (hx : Exec (Full.Step ω) (Full.new d st) ftr f) :
    R.length ≤ (answersTo c (seenIn ftr)).length ∧ (answersTo c (seenIn ftr)).length ≤ (askedBy c (seenIn ftr)).length ∧
      (askedBy c (seenIn ftr)).length ≤ L.length := by
  refine ⟨?_, by simpa using h.order.length_le, ?_⟩
  · cases hR : R.length with
    | zero => omega
    | succ k =>
      have hk : k < R.length := by omega
      obtain ⟨n, env, h1, -⟩ := h.shown k R[k] (by simp [hk])
      have := (List.getElem?_eq_some_iff.1 h1).1
      omega
  · obtain ⟨wss, h1, h2⟩ := h.lines.asked hx
    have := h2.length_le
    rw [h1.length_eq]
    simpa using this

theorem seenIn_one (e : Full.Ev) : seenIn [e] = [] ∨ ∃ x, seenIn [e] = [x] := by
  have h : ∀ w : Whole.Ev, netOf [w] = [] ∨ ∃ x, netOf [w] = [x] := by
    intro w
    cases w with
    | net x => exact .inr ⟨x, rfl⟩
    | _ => exact .inl rfl
  cases e with
  | whole w => exact h w
  | line => exact .inl rfl
  | both w c x => exact h w

/-- Answers come in the order of the requests as long as there is never more than one to come. -/
theorem order_step {tr : List Net.Ev} {s : Net.Sys} {x : Net.Ev} (h : Exec Net.Step (Net.new st) (tr ++ [x]) s) {c : Nat}
    (ho : (answersTo c tr).map Prod.fst <+: (askedBy c tr).map Prod.fst) (hl : (askedBy c tr).length ≤ (answersTo c tr).length + 1) :
    (answersTo c (tr ++ [x])).map Prod.fst <+: (askedBy c (tr ++ [x])).map Prod.fst := by
  have old : answersTo c [x] = [] → (answersTo c (tr ++ [x])).map Prod.fst <+: (askedBy c (tr ++ [x])).map Prod.fst := by
    intro h1
    rw [answersTo_append, h1, List.append_nil, askedBy_append, List.map_append]
    exact ho.trans (List.prefix_append _ _)
  cases x with
  | feed c' e => exact old rfl
  | read c' n o => exact old rfl
  | pipe e =>
    cases e with
    | wrote c' n b =>
      by_cases hc : c' = c
      · subst hc
        have hst := C70_streams h c'
        have hnd := hst.2.2.1
        obtain ⟨o, env, r, hn, -, -⟩ := hst.2.2.2 n b (by simp [answersTo_append, answersTo])
        simp only [answersTo_append, askedBy_append, answersTo, askedBy, if_true, List.append_nil, List.map_append, List.map_cons, List.map_nil] at hnd hn ⊢
        obtain ⟨rest, hr⟩ := ho
        have hlen : rest.length ≤ 1 := by
          have := congrArg List.length hr
          simp at this
          omega
        have hmem : n ∈ (answersTo c' tr).map Prod.fst ++ rest := by
          rw [hr]
          exact List.mem_map.2 ⟨_, hn, rfl⟩
        rw [List.nodup_append] at hnd
        rcases List.mem_append.1 hmem with hm | hm
        · exact absurd rfl (hnd.2.2 n hm n (by simp))
        · have : rest = [n] := by
            match rest, hlen, hm with
            | [x], _, hm => simp at hm; rw [hm]
          subst this
          rw [hr]
      · exact old (by simp [answersTo, hc])
    | _ => exact old rfl

/-- What happens at the server: bytes of terminal `c` arrive, or nothing that concerns what it has sent. -/
theorem server_cases {f f' : Full.Sys} {e : Full.Ev} (hs : Full.Step ω f e f') (T : Nat → Desk.Term) (c : Nat) :
    (∃ b, e = .whole (.net (.feed c (.arrived b)))) ∨ piecesOf c (seenIn [e]) = [] ∧ Desk.moved U T e c = T c := by
  cases hs with
  | send c' e w h1 =>
    cases e with
    | arrived b =>
      by_cases hc : c' = c
      · subst hc; exact .inl ⟨b, rfl⟩
      · refine .inr ⟨by simp [seenIn, wholeOf, netOf, piecesOf, hc], ?_⟩
        simp only [Desk.moved]
        split
        · exact upd_other _ _ (Ne.symm hc)
        · rfl
    | _ => exact .inr ⟨rfl, rfl⟩
  | whole e w h1 h2 =>
    right
    cases e with
    | net e =>
      cases e with
      | feed => cases h1
      | _ => exact ⟨rfl, rfl⟩
    | _ => exact ⟨rfl, rfl⟩
  | finish c' e w x h1 => cases e <;> first | (cases h1; done) | exact .inr ⟨rfl, rfl⟩
  | _ => exact .inr ⟨rfl, rfl⟩

/-- The client goes only when it has ended. -/
theorem stays {f f' : Full.Sys} {e : Full.Ev} (hs : Full.Step ω f e f') {T : Nat → Desk.Term} (hf : Desk.fits U T e) {c : Nat} (hu : U c = true)
    (hp : (T c).pc ≠ .over) : .client .gone ∉ lineOf c [e] ∧ .feed c .ended ∉ seenIn [e] := by
  constructor
  · intro hm
    rcases mem_lineOf.1 hm with h | ⟨w, h⟩ <;> simp only [List.mem_singleton] at h <;> subst h
    · exact hp (hf hu)
    · cases hs
  · intro hm
    rcases mem_wholeOf.1 (mem_netOf.1 hm) with h | ⟨c', x, h⟩ <;> simp only [List.mem_singleton] at h <;> subst h
    · exact hp (hf hu).1
    · cases hs with
      | finish _ _ _ _ h => cases h

theorem TermInv.server {c : Nat} {ftr : List Full.Ev} {f f' : Full.Sys} {T : Nat → Desk.Term} {L : List Bytes} {R : List Resp} {e : Full.Ev}
    (h : TermInv c ftr f (T c) L R) (hx : Exec (Full.Step ω) (Full.new d st) ftr f) (hs : Full.Step ω f e f') (hf : Desk.fits U T e) (hu : U c = true) :
    TermInv c (ftr ++ [e]) f' (Desk.moved U T e c) L R := by
  have hg := out_grows ((full_step hs).2 c)
  have hord : (answersTo c (seenIn (ftr ++ [e]))).map Prod.fst <+: (askedBy c (seenIn (ftr ++ [e]))).map Prod.fst := by
    obtain ⟨n, hn, -⟩ := (C82_parts (hx.snoc hs)).2.1
    rw [seenIn_append] at hn ⊢
    rcases seenIn_one e with h0 | ⟨x, h0⟩
    · rw [h0, List.append_nil]; exact h.order
    · rw [h0] at hn ⊢
      obtain ⟨h1, h2, h3⟩ := h.fewer hx
      have := h.count.1
      exact order_step hn h.order (by omega)
  have hshown : ∀ (i : Nat) r, R[i]? = some r →
      ∃ n env, (answersTo c (seenIn (ftr ++ [e])))[i]? = some (n, r.encode) ∧ (n, env, r) ∈ doneIn (seenIn (ftr ++ [e])) := by
    intro i r hi
    obtain ⟨n, env, h1, h2⟩ := h.shown i r hi
    refine ⟨n, env, ?_, ?_⟩
    · rw [seenIn_append, answersTo_append, List.getElem?_append_left (List.getElem?_eq_some_iff.1 h1).1]; exact h1
    · rw [seenIn_append, doneIn_append]; simp [h2]
  have hpc : (Desk.moved U T e c).pc = (T c).pc ∧ (Desk.moved U T e c).pos = (T c).pos ∧ (Desk.moved U T e c).buf = (T c).buf := by
    rcases server_cases hs T c with ⟨b, rfl⟩ | ⟨-, h⟩
    · simp [Desk.moved, hu, upd]
    · rw [h]; exact ⟨rfl, rfl, rfl⟩
  refine ⟨⟨h.lines.lines, ?_⟩, hord, by rw [hpc.1]; exact h.count, hshown, fun ho => ?_, fun ho => ((h.stream (by rwa [hpc.1] at ho)).same hpc.2.1 hpc.2.2).grow hg,
    fun hi => by rw [hpc.2.2]; exact h.idle (by rwa [hpc.1] at hi)⟩
  · obtain ⟨reqs, h1, h2⟩ := h.lines.bytes
    refine ⟨reqs, h1, ?_⟩
    rw [h2, seenIn_append, piecesOf_append]
    rcases server_cases (U := U) hs T c with ⟨b, rfl⟩ | ⟨h3, h4⟩
    · have hb : b <+: (T c).sent := hf hu
      obtain ⟨z, hz⟩ := hb
      have h5 : (Desk.moved U T (.whole (.net (.feed c (.arrived b)))) c).sent = z := by
        simp [Desk.moved, hu, upd, ← hz]
      rw [h5, ← hz]
      simp [seenIn, wholeOf, netOf, piecesOf]
    · rw [h3, h4]; simp
  · rw [hpc.1] at ho
    have h1 := h.here ho
    have h2 := stays hs hf hu ho
    rw [lineOf_append, seenIn_append]
    simp [h1, h2]

/-- The bytes read so far, when they are an object: the reply to the last line. -/
theorem TermInv.next {a0 : DB} (h0 : Abs st a0) {c : Nat} {ftr : List Full.Ev} {f : Full.Sys} {t : Desk.Term} {L : List Bytes} {R : List Resp}
    (h : TermInv c ftr f t L R) (hx : Exec (Full.Step ω) (Full.new d st) ftr f) (ho : ∀ x ∈ doneIn (seenIn ftr), x.2.1.ord.Fair ∧ Sized x.2.2)
    (hp : t.pc ≠ .over) : parse t.buf = .eof ∨ (parse t.buf = .bad ∧ .farewell ∈ (f.lines c).out) ∨
    ∃ r rest, parse t.buf = .ok r rest ∧ (∃ n env, (answersTo c (seenIn ftr))[R.length]? = some (n, r.encode) ∧ (n, env, r) ∈ doneIn (seenIn ftr)) ∧
      ∀ t' : Desk.Term, t'.pos = t.pos → t'.buf = [] → Stream (f.lines c).out t' (R.length + 1) := by
  obtain ⟨w1, w2, w3, -⟩ := C82_wire hx c
  have hparts : ∀ p, .part p ∉ (f.lines c).out := fun p hm => (h.here hp).1 (w3 p hm)
  have hfr : ∀ b ∈ repliesIn (f.lines c).out, ∃ r : Resp, b = r.encode ∧ ∀ rest, parse (r.encode ++ rest) = .ok r rest := by
    intro b hb
    rw [w1] at hb
    obtain ⟨⟨n, b'⟩, hb', rfl⟩ := List.mem_map.1 hb
    obtain ⟨env, r, -, g2, g3⟩ := answer_framed h0 h.lines hx ho hb'
    exact ⟨r, g2, g3⟩
  rcases (h.stream hp).verdict hfr hparts with v | v | ⟨r, rest, v1, v2, v3, v4⟩
  · exact .inl v
  · exact .inr (.inl v)
  · refine .inr (.inr ⟨r, rest, v1, ?_, v4 w2 ?_⟩)
    · rw [w1, List.getElem?_map] at v2
      cases ha : (answersTo c (seenIn ftr))[R.length]? with
      | none => rw [ha] at v2; cases v2
      | some x =>
        obtain ⟨n, b⟩ := x
        rw [ha] at v2
        simp only [Option.map_some, Option.some.injEq] at v2
        subst v2
        obtain ⟨env, r', g1, g2, g3⟩ := answer_framed h0 h.lines hx ho (List.mem_of_getElem? ha)
        have h1 := v3 []
        rw [g2, g3] at h1
        cases h1
        exact ⟨n, env, rfl, g1⟩
    · rw [w1, List.length_map]
      have := h.fewer hx
      have := h.count.1
      omega

theorem serverOf_append (a b : List Desk.Ev) : serverOf (a ++ b) = serverOf a ++ serverOf b := List.filterMap_append
theorem typedBy_append (c : Nat) (a b : List Desk.Ev) : typedBy c (a ++ b) = typedBy c a ++ typedBy c b := List.filterMap_append
theorem shownTo_append (c : Nat) (a b : List Desk.Ev) : shownTo c (a ++ b) = shownTo c a ++ shownTo c b := List.filterMap_append

/-- C85: what happens at the server is something that can happen at the server of C82, whoever sits at its connections. -/
theorem C85_parts {tr : List Desk.Ev} {s : Desk.Sys} (h : Exec (Desk.Step ω U) (Desk.new d st) tr s) :
    Exec (Full.Step ω) (Full.new d st) (serverOf tr) s.full := by
  refine h.inv (P := fun tr s => Exec (Full.Step ω) (Full.new d st) (serverOf tr) s.full) .nil ?_
  rintro tr s e s' - ih hs
  rw [serverOf_append]
  cases hs with
  | server e f _ _ hs => exact ih.snoc hs
  | _ => rw [show serverOf [_] = [] from rfl, List.append_nil]; exact ih

theorem termInv {a0 : DB} (h0 : Abs st a0) {tr : List Desk.Ev} {s : Desk.Sys} (h : Exec (Desk.Step ω U) (Desk.new d st) tr s)
    (ho : ∀ x ∈ doneIn (seenIn (serverOf tr)), x.2.1.ord.Fair ∧ Sized x.2.2) {c : Nat} (hu : U c = true) :
    TermInv c (serverOf tr) s.full (s.terms c) (typedBy c tr) (shownTo c tr) := by
  revert ho
  refine h.inv (P := fun tr s => (∀ x ∈ doneIn (seenIn (serverOf tr)), x.2.1.ord.Fair ∧ Sized x.2.2) →
    TermInv c (serverOf tr) s.full (s.terms c) (typedBy c tr) (shownTo c tr)) (fun _ => ?_) ?_
  · refine ⟨⟨by simp [typedBy], [], .nil, rfl⟩, List.prefix_refl _, ⟨by simp [typedBy], by simp [typedBy, shownTo], by simp [Desk.new, Desk.start]⟩,
      by simp [shownTo], fun _ => ⟨by simp [serverOf, lineOf], by simp [serverOf, seenIn, wholeOf, netOf]⟩, fun _ => ?_, fun _ => rfl⟩
    exact ⟨[], [], [], 0, rfl, rfl, rfl, Nat.le_refl _, List.nil_prefix, rfl, List.nil_suffix, by simp⟩
  intro tr s e s' hx ih hs ho
  have hfx := C85_parts hx
  have hi := ih fun x hx => ho x (by rw [serverOf_append, seenIn_append, doneIn_append]; simp [hx])
  have other : ∀ c' t, c' ≠ c → s'.full = s.full → s'.terms = upd s.terms c' t → serverOf [e] = [] → typedBy c [e] = [] → shownTo c [e] = [] →
      TermInv c (serverOf (tr ++ [e])) s'.full (s'.terms c) (typedBy c (tr ++ [e])) (shownTo c (tr ++ [e])) := by
    intro c' t hc h1 h2 h3 h4 h5
    rw [serverOf_append, typedBy_append, shownTo_append, h1, h2, h3, h4, h5, upd_other _ _ (Ne.symm hc)]
    simpa using hi
  have mine : ∀ t (L : List Bytes) (R : List Resp), s'.full = s.full → s'.terms = upd s.terms c t → serverOf [e] = [] → typedBy c [e] = L → shownTo c [e] = R →
      TermInv c (serverOf tr) s.full t (typedBy c tr ++ L) (shownTo c tr ++ R) →
      TermInv c (serverOf (tr ++ [e])) s'.full (s'.terms c) (typedBy c (tr ++ [e])) (shownTo c (tr ++ [e])) := by
    intro t L R h1 h2 h3 h4 h5 h6
    rw [serverOf_append, typedBy_append, shownTo_append, h1, h2, h3, h4, h5, upd_same, List.append_nil]
    exact h6
  cases hs with
  | server e f _ h1 h2 =>
    have := hi.server hfx h2 h1 hu
    rw [serverOf_append, typedBy_append, shownTo_append]
    simpa [serverOf, typedBy, shownTo] using this
  | gone =>
    rw [serverOf_append, typedBy_append, shownTo_append]
    simpa [serverOf, typedBy, shownTo] using hi
  | prompt c' h1 h2 =>
    by_cases hc : c' = c
    · subst hc
      refine mine _ [] [] rfl rfl rfl rfl rfl ?_
      rw [List.append_nil, List.append_nil]
      exact ⟨hi.lines, hi.order, ⟨hi.count.1, fun _ => hi.count.2.1 (.inl h2), by simp⟩, hi.shown, fun _ => hi.here (by simp [h2]), fun _ => (hi.stream (by simp [h2])).same rfl rfl,
        fun _ => hi.idle (.inl h2)⟩
    · exact other c' _ hc rfl rfl rfl rfl rfl
  | typed c' l req h1 h2 h3 h4 =>
    by_cases hc : c' = c
    · subst hc
      refine mine _ [l] [] rfl rfl rfl (by simp [typedBy]) rfl ?_
      rw [List.append_nil]
      have hst := hi.stream (by simp [h2])
      have hcnt := hi.count.2.1 (.inr h2)
      refine ⟨⟨?_, ?_⟩, hi.order, ⟨by simp [hcnt], by simp, by simp [hcnt]⟩, hi.shown, fun _ => hi.here (by simp [h2]), fun _ => hst.same rfl (hi.idle (.inr h2)).symm, by simp⟩
      · intro x hx
        rcases List.mem_append.1 hx with hx | hx
        · exact hi.lines.lines x hx
        · simp only [List.mem_singleton] at hx; subst hx; exact h3
      · obtain ⟨reqs, g1, g2⟩ := hi.lines.bytes
        exact ⟨reqs ++ [req], List.rel_append g1 (.cons h4 .nil), by simp [g2]⟩
    · exact other c' _ hc rfl rfl rfl (by simp [typedBy, hc]) rfl
  | unsent c' l req h1 h2 h3 h4 h5 =>
    by_cases hc : c' = c
    · subst hc
      refine mine _ [] [] rfl rfl rfl rfl rfl ?_
      rw [List.append_nil, List.append_nil]
      exact ⟨hi.lines, hi.order, ⟨hi.count.1, fun _ => hi.count.2.1 (.inr h2), by simp⟩, hi.shown, fun _ => hi.here (by simp [h2]), fun _ => (hi.stream (by simp [h2])).same rfl rfl,
        fun _ => hi.idle (.inr h2)⟩
    · exact other c' _ hc rfl rfl rfl rfl rfl
  | quit c' h1 h2 =>
    by_cases hc : c' = c
    · subst hc
      refine mine _ [] [] rfl rfl rfl rfl rfl ?_
      rw [List.append_nil, List.append_nil]
      exact ⟨hi.lines, hi.order, ⟨hi.count.1, by simp, by simp⟩, hi.shown, by simp, by simp, by simp⟩
    · exact other c' _ hc rfl rfl rfl rfl rfl
  | took c' b h1 h2 h3 h4 h5 =>
    by_cases hc : c' = c
    · subst hc
      refine mine _ [] [] rfl rfl rfl rfl rfl ?_
      rw [List.append_nil, List.append_nil]
      exact ⟨hi.lines, hi.order, ⟨hi.count.1, by simp [h2], fun _ => hi.count.2.2 h2⟩, hi.shown, fun _ => hi.here (by simp [h2]), fun _ => (hi.stream (by simp [h2])).took h5 rfl rfl, by simp [h2]⟩
    · exact other c' _ hc rfl rfl rfl rfl rfl
  | failed c' h1 h2 h3 =>
    by_cases hc : c' = c
    · subst hc
      refine mine _ [] [] rfl rfl rfl rfl rfl ?_
      rw [List.append_nil, List.append_nil]
      exact ⟨hi.lines, hi.order, ⟨hi.count.1, by simp, by simp⟩, hi.shown, by simp, by simp, by simp⟩
    · exact other c' _ hc rfl rfl rfl rfl rfl
  | crash c' h1 h2 h3 =>
    by_cases hc : c' = c
    · subst hc
      refine mine _ [] [] rfl rfl rfl rfl rfl ?_
      rw [List.append_nil, List.append_nil]
      exact ⟨hi.lines, hi.order, ⟨hi.count.1, by simp, by simp⟩, hi.shown, by simp, by simp, by simp⟩
    · exact other c' _ hc rfl rfl rfl rfl rfl
  | choke c' l h1 h2 h3 =>
    by_cases hc : c' = c
    · subst hc
      refine mine _ [] [] rfl rfl rfl rfl rfl ?_
      rw [List.append_nil, List.append_nil]
      exact ⟨hi.lines, hi.order, ⟨hi.count.1, by simp, by simp⟩, hi.shown, by simp, by simp, by simp⟩
    · exact other c' _ hc rfl rfl rfl rfl rfl
  | shown c' r rest h1 h2 h3 =>
    by_cases hc : c' = c
    · subst hc
      refine mine _ [] [r] rfl rfl rfl rfl (by simp [shownTo]) ?_
      rw [List.append_nil]
      have ho' : ∀ x ∈ doneIn (seenIn (serverOf tr)), x.2.1.ord.Fair ∧ Sized x.2.2 := fun x hx => ho x (by rw [serverOf_append, seenIn_append, doneIn_append]; simp [hx])
      obtain ⟨r', rest', v1, v3, v4⟩ : ∃ r rest, parse (s.terms c').buf = .ok r rest ∧ _ ∧ _ := by
        rcases hi.next h0 hfx ho' (by simp [h2]) with e | ⟨e, -⟩ | v
        · rw [h3] at e; cases e
        · rw [h3] at e; cases e
        · exact v
      rw [h3] at v1
      cases v1
      have hcnt := hi.count.2.2 h2
      have hlen := hi.fewer hfx
      obtain ⟨n, env, g1, g2⟩ := v3
      refine ⟨hi.lines, hi.order, ⟨by simp; omega, fun _ => by simp [hcnt], by simp⟩, ?_, fun _ => hi.here (by simp [h2]), fun _ => ?_, fun _ => rfl⟩
      · intro i x hx
        rcases Nat.lt_or_ge i (shownTo c' tr).length with hlt | hge
        · rw [List.getElem?_append_left hlt] at hx
          exact hi.shown i x hx
        · rw [List.getElem?_append_right hge] at hx
          have hi0 : i - (shownTo c' tr).length = 0 := by
            by_contra hne
            rw [List.getElem?_eq_none (by simp; omega)] at hx
            cases hx
          rw [hi0] at hx
          simp only [List.getElem?_cons_zero, Option.some.injEq] at hx
          subst hx
          rw [show i = (shownTo c' tr).length by omega]
          exact ⟨n, env, g1, g2⟩
      · rw [List.length_append]
        exact v4 _ rfl rfl
    · exact other c' _ hc rfl rfl rfl rfl (by simp [shownTo, hc])

theorem wrote_split {c n : Nat} {b : Bytes} {tr : List Net.Ev} (h : (n, b) ∈ answersTo c tr) : ∃ x y, tr = x ++ .pipe (.wrote c n b) :: y := by
  have : .pipe (.wrote c n b) ∈ tr := by
    induction tr with
    | nil => simp [answersTo] at h
    | cons e tr ih =>
      have old : (n, b) ∈ answersTo c tr → .pipe (.wrote c n b) ∈ e :: tr := fun h => by simp [ih h]
      cases e with
      | pipe e =>
        cases e with
        | wrote c' n' b' =>
          simp only [answersTo] at h
          split at h
          · next hc =>
            rcases List.mem_cons.1 h with h | h
            · cases h; subst hc; simp
            · exact old h
          · exact old h
        | _ => exact old h
      | _ => exact old h
  exact List.append_of_mem this

theorem read_split {c n : Nat} {o : Resp} {tr : List Net.Ev} (h : (n, o) ∈ askedBy c tr) : ∃ x y, tr = x ++ .read c n o :: y := by
  have : .read c n o ∈ tr := by
    induction tr with
    | nil => simp [askedBy] at h
    | cons e tr ih =>
      have old : (n, o) ∈ askedBy c tr → .read c n o ∈ e :: tr := fun h => by simp [ih h]
      cases e with
      | read c' n' o' =>
        simp only [askedBy] at h
        split at h
        · next hc =>
          rcases List.mem_cons.1 h with h | h
          · cases h; subst hc; simp
          · exact old h
        · exact old h
      | _ => exact old h
  exact List.append_of_mem this

/-- The place of request `n` among those executed. -/
def placeOf (tr : List Net.Ev) (n : Nat) : Nat := ((doneIn tr).map Prod.fst).idxOf n

theorem placeOf_done {tr : List Net.Ev} {s : Net.Sys} (h : Exec Net.Step (Net.new st) tr s) {n : Nat} {env : Env} {r : Resp} (hd : (n, env, r) ∈ doneIn tr) :
    (doneIn tr)[placeOf tr n]? = some (n, env, r) := by
  obtain ⟨-, hp, -⟩ := net_split h
  have hnd := (C46_once hp).2.1
  rw [← doneIn_eq] at hnd
  obtain ⟨i, hi, he⟩ := List.getElem_of_mem hd
  have hi' : i < ((doneIn tr).map Prod.fst).length := by simpa using hi
  have : placeOf tr n = i := by
    rw [placeOf, ← show ((doneIn tr).map Prod.fst)[i] = n by simp [he]]
    exact List.Nodup.idxOf_getElem hnd i hi'
  rw [this, List.getElem?_eq_getElem hi, he]

/-- The requests executed explain what the users see; and each request of a user that was executed is one of the user's lines. -/
theorem explains_all {a0 : DB} (h0 : Abs st a0) {tr : List Desk.Ev} {s : Desk.Sys} (h : Exec (Desk.Step ω U) (Desk.new d st) tr s)
    (ho : ∀ x ∈ doneIn (seenIn (serverOf tr)), x.2.1.ord.Fair ∧ Sized x.2.2) {qs : List (List Resp)}
    (q1 : List.Forall₂ (fun x objs => ∃ c o, (x.1, o) ∈ askedBy c (seenIn (serverOf tr)) ∧ ArrayOf o objs) (doneIn (seenIn (serverOf tr))) qs) :
    ∃ place, OneDatabase U tr qs ((doneIn (seenIn (serverOf tr))).map fun x => x.2.2) place ∧
      (∀ (before after : List Desk.Ev) (c i : Nat), tr = before ++ after → U c = true → i < (shownTo c before).length →
        place c i < (doneIn (seenIn (serverOf before))).length) ∧
      (∀ c i, U c = true → i < (shownTo c tr).length → ∃ e o, (doneIn (seenIn (serverOf tr)))[place c i]? = some e ∧ (e.1, o) ∈ askedBy c (seenIn (serverOf tr))) ∧
      ∀ (q n : Nat) env r c o, (doneIn (seenIn (serverOf tr)))[q]? = some (n, env, r) → (n, o) ∈ askedBy c (seenIn (serverOf tr)) → U c = true →
        ∃ i l ws, place c i = q ∧ (typedBy c tr)[i]? = some l ∧ Words l ws ∧ qs[q]? = some (ws.map .bulk) ∧
          ∀ (before after : List Desk.Ev) (c' i' : Nat), tr = before ++ after → U c' = true → i' < (shownTo c' before).length →
            (typedBy c before).length ≤ i → place c' i' < q := by
  have hfx := C85_parts h
  obtain ⟨n, hn, -⟩ := (C82_parts hfx).2.1
  have hnd : ((doneIn (seenIn (serverOf tr))).map Prod.fst).Nodup := by
    obtain ⟨-, hp, -⟩ := net_split hn
    rw [doneIn_eq]
    exact (C46_once hp).2.1
  -- the number of the i-th line of user c
  let num : Nat → Nat → Nat := fun c i => (((askedBy c (seenIn (serverOf tr)))[i]?).map Prod.fst).getD 0
  have facts : ∀ c (i : Nat) r, U c = true → (shownTo c tr)[i]? = some r → ∃ env o b, (num c i, env, r) ∈ doneIn (seenIn (serverOf tr)) ∧
      (askedBy c (seenIn (serverOf tr)))[i]? = some (num c i, o) ∧ (answersTo c (seenIn (serverOf tr)))[i]? = some (num c i, b) := by
    intro c i r hu hi
    have ht := termInv h0 h ho hu
    obtain ⟨k, env, g1, g2⟩ := ht.shown i r hi
    have hlt := (List.getElem?_eq_some_iff.1 g1).1
    have hle := (ht.fewer hfx).2.1
    have hq : i < (askedBy c (seenIn (serverOf tr))).length := by omega
    have hk : (askedBy c (seenIn (serverOf tr)))[i].1 = k := by
      obtain ⟨w, hw⟩ := ht.order
      have h1 : ((askedBy c (seenIn (serverOf tr))).map Prod.fst)[i]? = some k := by
        rw [← hw, List.getElem?_append_left (by simpa using hlt), List.getElem?_map, g1]; rfl
      rw [List.getElem?_map, List.getElem?_eq_getElem hq] at h1
      simpa using h1
    have hnum : num c i = k := by
      simp only [num, List.getElem?_eq_getElem hq, Option.map_some, Option.getD_some, hk]
    rw [hnum]
    exact ⟨env, (askedBy c (seenIn (serverOf tr)))[i].2, _, g2, by rw [List.getElem?_eq_getElem hq, ← hk], g1⟩
  -- what is executed of a user is one of the lines
  have said : ∀ c (i : Nat) env r o, U c = true → (num c i, env, r) ∈ doneIn (seenIn (serverOf tr)) → (askedBy c (seenIn (serverOf tr)))[i]? = some (num c i, o) →
      ∃ l ws, (typedBy c tr)[i]? = some l ∧ Words l ws ∧ qs[placeOf (seenIn (serverOf tr)) (num c i)]? = some (ws.map .bulk) ∧
        ((doneIn (seenIn (serverOf tr))).map fun x => x.2.2)[placeOf (seenIn (serverOf tr)) (num c i)]? = some r := by
    intro c i env r o hu g1 g2
    have ht := termInv h0 h ho hu
    have hpl := placeOf_done hn g1
    obtain ⟨hplt, hpe⟩ := List.getElem?_eq_some_iff.1 hpl
    obtain ⟨wss, w1, w2⟩ := ht.lines.asked hfx
    have hqlt := (List.getElem?_eq_some_iff.1 g2).1
    have hwl : i < wss.length := by
      have := w2.length_le
      simp only [List.length_map] at this
      omega
    have hll : i < (typedBy c tr).length := by rw [w1.length_eq]; exact hwl
    have ho' : o = .array (wss[i].map .bulk) := by
      obtain ⟨z, hz⟩ := w2
      have h1 : (wss.map fun ws => Resp.array (ws.map .bulk))[i]? = some o := by
        rw [← hz, List.getElem?_append_left (by simpa using hqlt), List.getElem?_map, g2]; rfl
      rw [List.getElem?_map, List.getElem?_eq_getElem hwl] at h1
      simpa using h1.symm
    have hqs : placeOf (seenIn (serverOf tr)) (num c i) < qs.length := by rw [← q1.length_eq]; exact hplt
    obtain ⟨c', o', k1, k2⟩ := (List.forall₂_iff_get.1 q1).2 _ hplt hqs
    simp only [List.get_eq_getElem, hpe] at k1 k2
    obtain ⟨rfl, rfl⟩ := asked_unique hn (List.mem_of_getElem? g2) k1
    refine ⟨(typedBy c tr)[i], wss[i], List.getElem?_eq_getElem hll, (List.forall₂_iff_get.1 w1).2 i hll hwl, ?_, ?_⟩
    · rw [List.getElem?_eq_getElem hqs]
      rcases k2 with e | ⟨e, -⟩
      · rw [ho'] at e; simpa using e.symm
      · rw [ho'] at e; cases e
    · rw [List.getElem?_map, hpl]; rfl
  have later : ∀ (before after : List Desk.Ev) (c c' i j : Nat) env' r' o', tr = before ++ after → U c = true → U c' = true → i < (shownTo c before).length →
      (typedBy c' before).length ≤ j → (num c' j, env', r') ∈ doneIn (seenIn (serverOf tr)) → (askedBy c' (seenIn (serverOf tr)))[j]? = some (num c' j, o') →
      placeOf (seenIn (serverOf tr)) (num c i) < placeOf (seenIn (serverOf tr)) (num c' j) := by
    intro before after c c' i j env' r' o' htr hu hu' hi hj g1' g2'
    subst htr
    obtain ⟨s1, hx1, -⟩ := h.split
    have ho1 : ∀ x ∈ doneIn (seenIn (serverOf before)), x.2.1.ord.Fair ∧ Sized x.2.2 := fun x hx => ho x (by rw [serverOf_append, seenIn_append, doneIn_append]; simp [hx])
    have ht1 := termInv h0 hx1 ho1 hu
    have ht1' := termInv h0 hx1 ho1 hu'
    have hi' : (shownTo c (before ++ after))[i]? = some (shownTo c before)[i] := by
      rw [shownTo_append, List.getElem?_append_left hi, List.getElem?_eq_getElem hi]
    obtain ⟨env, o, b, g1, g2, g3⟩ := facts c i _ hu hi'
    have hw : (num c i, b) ∈ answersTo c (seenIn (serverOf before)) := by
      have hlt : i < (answersTo c (seenIn (serverOf before))).length := Nat.lt_of_lt_of_le hi (ht1.fewer (C85_parts hx1)).1
      rw [serverOf_append, seenIn_append, answersTo_append, List.getElem?_append_left hlt] at g3
      exact List.mem_of_getElem? (g3 : (answersTo c (seenIn (serverOf before)))[i]? = some (num c i, b))
    have hr : (num c' j, o') ∈ askedBy c' (seenIn (serverOf after)) := by
      have hle : (askedBy c' (seenIn (serverOf before))).length ≤ j := Nat.le_trans (ht1'.fewer (C85_parts hx1)).2.2 hj
      rw [serverOf_append, seenIn_append, askedBy_append, List.getElem?_append_right hle] at g2'
      exact List.mem_of_getElem? g2'
    obtain ⟨x1, y1, e1⟩ := wrote_split hw
    obtain ⟨x2, y2, e2⟩ := read_split hr
    obtain ⟨x, y, e3⟩ := List.append_of_mem g1'
    obtain ⟨env2, r2, hm⟩ := C70_real_time hn (a := x1) (b := y1 ++ x2) (e := y2) (c := c) (c' := c') (n := num c i) (m := num c' j) (w := b) (o := o')
      (by rw [serverOf_append, seenIn_append, e1, e2]; simp) e3
    have hmem : num c i ∈ x.map Prod.fst := List.mem_map.2 ⟨_, hm, rfl⟩
    have hnot : num c' j ∉ x.map Prod.fst := by
      rw [e3, List.map_append, List.map_cons, List.nodup_append] at hnd
      intro hc
      exact hnd.2.2 _ hc _ (by simp) rfl
    show placeOf _ _ < placeOf _ _
    rw [placeOf, placeOf, e3, List.map_append, List.map_cons, List.idxOf_append_of_mem hmem, List.idxOf_append_of_notMem hnot]
    have := List.idxOf_lt_length_of_mem hmem
    omega
  refine ⟨fun c i => placeOf (seenIn (serverOf tr)) (num c i), ⟨?_, ?_, ?_⟩, ?_, ?_, ?_⟩
  · intro c i r hu hi
    obtain ⟨env, o, b, g1, g2, -⟩ := facts c i r hu hi
    exact said c i env r o hu g1 g2
  · intro c c' i j hu hu' hi hj he
    obtain ⟨env, o, b, g1, g2, g3⟩ := facts c i _ hu (List.getElem?_eq_getElem hi)
    obtain ⟨env', o', b', g1', g2', g3'⟩ := facts c' j _ hu' (List.getElem?_eq_getElem hj)
    have h1 := placeOf_done hn g1
    have h2 := placeOf_done hn g1'
    simp only [he] at h1
    rw [h1] at h2
    simp only [Option.some.injEq, Prod.mk.injEq] at h2
    have hm := List.mem_of_getElem? g2'
    rw [← h2.1] at hm g3'
    obtain ⟨rfl, -⟩ := asked_unique hn (List.mem_of_getElem? g2) hm
    refine ⟨rfl, ?_⟩
    have hnodup := (C70_streams hn c).2.2.1
    have ki : ((answersTo c (seenIn (serverOf tr))).map Prod.fst)[i]? = some (num c i) := by rw [List.getElem?_map, g3]; rfl
    have kj : ((answersTo c (seenIn (serverOf tr))).map Prod.fst)[j]? = some (num c i) := by rw [List.getElem?_map, g3']; rfl
    exact (List.getElem?_inj (List.getElem?_eq_some_iff.1 ki).1 hnodup).1 (ki.trans kj.symm)
  · intro before after c c' i j htr hu hu' hi hj hj'
    obtain ⟨env', o', b', g1', g2', g3'⟩ := facts c' j _ hu' (List.getElem?_eq_getElem hj')
    exact later before after c c' i j env' _ o' htr hu hu' hi hj g1' g2'
  · intro before after c i htr hu hi
    subst htr
    obtain ⟨s1, hx1, -⟩ := h.split
    have ho1 : ∀ x ∈ doneIn (seenIn (serverOf before)), x.2.1.ord.Fair ∧ Sized x.2.2 := fun x hx => ho x (by rw [serverOf_append, seenIn_append, doneIn_append]; simp [hx])
    have ht1 := termInv h0 hx1 ho1 hu
    obtain ⟨env, o, b, -, -, g3⟩ := facts c i _ hu (by rw [shownTo_append, List.getElem?_append_left hi, List.getElem?_eq_getElem hi])
    obtain ⟨k, env1, k1, k2⟩ := ht1.shown i _ (List.getElem?_eq_getElem hi)
    have hk : num c i = k := by
      rw [serverOf_append, seenIn_append, answersTo_append, List.getElem?_append_left (List.getElem?_eq_some_iff.1 k1).1, k1] at g3
      simp only [Option.some.injEq, Prod.mk.injEq] at g3
      exact g3.1.symm
    have hmem : num c i ∈ (doneIn (seenIn (serverOf before))).map Prod.fst := List.mem_map.2 ⟨_, k2, hk.symm⟩
    show placeOf _ _ < _
    rw [placeOf, serverOf_append, seenIn_append, doneIn_append, List.map_append, List.idxOf_append_of_mem hmem]
    simpa using List.idxOf_lt_length_of_mem hmem
  · intro c i hu hi
    obtain ⟨env, o, b, g1, g2, -⟩ := facts c i _ hu (List.getElem?_eq_getElem hi)
    exact ⟨_, o, placeOf_done hn g1, List.mem_of_getElem? g2⟩
  · intro q k env r c o hq ha hu
    obtain ⟨i, hi, he⟩ := List.getElem_of_mem ha
    have hk : num c i = k := by simp only [num, List.getElem?_eq_getElem hi, Option.map_some, Option.getD_some, he]
    have g2 : (askedBy c (seenIn (serverOf tr)))[i]? = some (num c i, o) := by rw [List.getElem?_eq_getElem hi, he, hk]
    have g1 : (num c i, env, r) ∈ doneIn (seenIn (serverOf tr)) := hk ▸ List.mem_of_getElem? hq
    have hp : placeOf (seenIn (serverOf tr)) (num c i) = q := by
      have hlt := (List.getElem?_eq_some_iff.1 hq).1
      have hg : ((doneIn (seenIn (serverOf tr))).map Prod.fst)[q]? = some (num c i) := by rw [List.getElem?_map, hq, hk]; rfl
      obtain ⟨hlt', e⟩ := List.getElem?_eq_some_iff.1 hg
      rw [placeOf, ← e]
      exact List.Nodup.idxOf_getElem hnd q hlt'
    obtain ⟨l, ws, k1, k2, k3, -⟩ := said c i env r o hu g1 g2
    exact ⟨i, l, ws, hp, k1, k2, hp ▸ k3, fun before after c' i' htr hu' hi' hl => hp ▸ later before after c' c i' i env r o htr hu' hu hi' hl g1 g2⟩

/-- The requests executed explain what the users see. -/
theorem explains {a0 : DB} (h0 : Abs st a0) {tr : List Desk.Ev} {s : Desk.Sys} (h : Exec (Desk.Step ω U) (Desk.new d st) tr s)
    (ho : ∀ x ∈ doneIn (seenIn (serverOf tr)), x.2.1.ord.Fair ∧ Sized x.2.2) {qs : List (List Resp)}
    (q1 : List.Forall₂ (fun x objs => ∃ c o, (x.1, o) ∈ askedBy c (seenIn (serverOf tr)) ∧ ArrayOf o objs) (doneIn (seenIn (serverOf tr))) qs) :
    ∃ place, OneDatabase U tr qs ((doneIn (seenIn (serverOf tr))).map fun x => x.2.2) place ∧
      ∀ (before after : List Desk.Ev) (c i : Nat), tr = before ++ after → U c = true → i < (shownTo c before).length →
        place c i < (doneIn (seenIn (serverOf before))).length := by
  obtain ⟨place, h1, h2, -⟩ := explains_all (U := U) h0 h ho q1
  exact ⟨place, h1, h2⟩

/-- C85: however many users there are at their terminals, beside however many other clients, and whatever happens at the server and to the connections, one
database explains what they all see. -/
theorem C85_one_database {a0 : DB} (h0 : Abs st a0) {tr : List Desk.Ev} {s : Desk.Sys} (h : Exec (Desk.Step ω U) (Desk.new d st) tr s)
    (ho : ∀ x ∈ doneIn (seenIn (serverOf tr)), x.2.1.ord.Fair ∧ Sized x.2.2) :
    ∃ qs rs a place, Trace a0 qs rs a ∧ Abs s.full.whole.hub.db a ∧ OneDatabase U tr qs rs place := by
  have hfx := C85_parts h
  obtain ⟨n, hn, -, hdb⟩ := (C82_parts hfx).2.1
  obtain ⟨qs, a, q1, q2, q3⟩ := C70_sequential h0 hn fun x hx => (ho x hx).1
  obtain ⟨place, hp, -⟩ := explains (U := U) h0 h ho q1
  exact ⟨qs, _, a, place, q2, hdb ▸ q3, hp⟩

/-! ### The screen -/

theorem full_up {f f' : Full.Sys} {e : Full.Ev} (hs : Full.Step ω f e f') : f.up := by
  cases hs with
  | whole _ _ _ h | read _ _ _ _ _ h => exact whole_up h
  | send _ _ _ _ _ _ h => exact whole_up h
  | finish _ _ _ _ _ h => exact whole_up h
  | kill _ _ _ h => exact whole_up h
  | wrote _ _ _ _ _ h | fail _ _ _ _ _ h => exact whole_up h
  | refuse _ _ _ _ _ _ h => exact whole_up h
  | readCall _ _ h | cut _ _ h | closeCall _ _ h | writeCall _ _ _ _ h | own _ _ _ h => exact h

theorem sock_stays {x y : Conn.Sys} {ls : List Conn.Ev} (h : Exec Conn.Step x ls y) (hx : x.sock = true) : y.sock = true := by
  refine h.inv (P := fun _ (y : Conn.Sys) => y.sock = true) hx ?_
  intro tr y l z _ ih hs
  cases hs <;> first | exact ih | rfl

/-- Nothing more is written to a connection that is closed. -/
theorem no_more_answers {f f' : Full.Sys} {e : Full.Ev} (hs : Full.Step ω f e f') {c : Nat} (hc : (f.lines c).sock = true) : answersTo c (seenIn [e]) = [] := by
  cases hs with
  | whole e w h1 h2 => rw [show seenIn [.whole e] = netOf [e] from rfl]; exact (apart_quiet h1 c).1
  | wrote n c' b w x h1 h2 =>
    by_cases hcc : c' = c
    · subst hcc
      cases h2 with
      | wrote _ _ _ h3 => rw [hc] at h3; cases h3
    · simp [seenIn, wholeOf, netOf, answersTo, hcc]
  | _ => rfl

theorem ended_said {tr : List Feed.Ev} {x : Feed.Sys} (h : Exec Feed.Step Feed.new tr x) : x.ended = true → .ended ∈ tr := by
  refine h.inv (P := fun tr (x : Feed.Sys) => x.ended = true → .ended ∈ tr) (by simp [Feed.new]) ?_
  intro tr s l s' _ ih hs
  cases hs <;> simp_all

theorem left_said {tr : List Feed.Ev} {x : Feed.Sys} (h : Exec Feed.Step Feed.new tr x) : .left ∈ tr → .ended ∈ tr := by
  refine h.inv (P := fun tr (x : Feed.Sys) => .left ∈ tr → .ended ∈ tr) (by simp) ?_
  intro tr s l s' hx ih hs
  have := ended_said hx
  cases hs <;> simp_all

theorem mem_feedOf {c : Nat} {e : Feed.Ev} {tr : List Net.Ev} (he : ∀ o, e ≠ .read o) : e ∈ feedOf c tr ↔ .feed c e ∈ tr := by
  induction tr with
  | nil => simp [feedOf]
  | cons x tr ih =>
    cases x with
    | feed c' e' =>
      simp only [feedOf, List.mem_cons, Net.Ev.feed.injEq]
      by_cases hc : c' = c
      · subst hc; simp [ih]
      · simp [hc, Ne.symm hc, ih]
    | read c' n o =>
      simp only [feedOf, List.mem_cons, reduceCtorEq, false_or]
      by_cases hc : c' = c
      · subst hc; simp [ih, he o]
      · simp [hc, ih]
    | pipe e' => simp [feedOf, ih]

/-- The timer of a connection whose client has not ended is what closes it. -/
theorem closed_expired {ftr : List Full.Ev} {f : Full.Sys} (h : Exec (Full.Step ω) (Full.new d st) ftr f) {c : Nat} (he : .feed c .ended ∉ seenIn ftr)
    (hc : (f.lines c).sock = true ∨ .farewell ∈ (f.lines c).out) : .expired ∈ lineOf c ftr := by
  have hl := (full_exec h).2 c
  have hi := connInv hl
  have hflag : (f.lines c).flag = true := by
    by_contra hf
    have hf' := hi.fresh (by simpa using hf)
    rcases hc with hc | hc
    · rw [hf'.2.1] at hc; cases hc
    · obtain ⟨i, hi⟩ := hi.farewells.1 hc
      exact (hf'.2.2 i).1 hi
  obtain ⟨i, hw⟩ := hi.flag.1 hflag
  rcases C82_closed h hw with ⟨-, hx⟩ | ⟨-, hx⟩
  · exact hx
  · exfalso
    obtain ⟨n, hn, -⟩ := (C82_parts h).2.1
    have hfd := (net_split hn).1 c
    exact he ((mem_feedOf (by simp)).1 (left_said hfd ((mem_feedOf (by simp)).2 hx)))

/-- The rounds in which a line could not be sent. -/
abbrev unsentRounds (k : Nat) : List Client.Seen := (List.replicate k [.print b!">>> ", .writeError]).flatten

/-- What is on a screen, and why. -/
structure ScreenInv (c : Nat) (ftr : List Full.Ev) (s : Desk.Sys) (R : List Resp) : Prop where
  screen : ∃ k tail, (s.terms c).screen = onScreen R ++ unsentRounds k ++ tail ∧
    ((s.terms c).pc = .top → tail = []) ∧ ((s.terms c).pc = .asking ∨ (s.terms c).pc = .waiting → tail = [.print b!">>> "]) ∧
    ((s.terms c).pc = .over → tail = [.print b!">>> "] ∨ tail = [.print b!">>> ", .readError]) ∧
    (0 < k → Desk.cutOff s c ∧ (answersTo c (seenIn ftr)).length = R.length) ∧
    (0 < k ∨ .readError ∈ tail → .expired ∈ lineOf c ftr ∨ ¬ s.full.up ∨ s.gone = true)

theorem screenInv {a0 : DB} (h0 : Abs st a0) {tr : List Desk.Ev} {s : Desk.Sys} (h : Exec (Desk.Step ω U) (Desk.new d st) tr s)
    (ho : ∀ x ∈ doneIn (seenIn (serverOf tr)), x.2.1.ord.Fair ∧ Sized x.2.2) {c : Nat} (hu : U c = true) :
    ScreenInv c (serverOf tr) s (shownTo c tr) := by
  revert ho
  refine h.inv (P := fun tr s => (∀ x ∈ doneIn (seenIn (serverOf tr)), x.2.1.ord.Fair ∧ Sized x.2.2) →
    ScreenInv c (serverOf tr) s (shownTo c tr)) (fun _ => ⟨0, [], by simp [Desk.new, Desk.start, onScreen, shownTo, unsentRounds]⟩) ?_
  intro tr s e s' hx ih hs ho
  have hfx := C85_parts hx
  have ho' : ∀ x ∈ doneIn (seenIn (serverOf tr)), x.2.1.ord.Fair ∧ Sized x.2.2 := fun x hx => ho x (by rw [serverOf_append, seenIn_append, doneIn_append]; simp [hx])
  obtain ⟨k, tail, i1, i2, i3, i4, i5, i6⟩ := (ih ho').screen
  have ht := termInv h0 hx ho' hu
  have other : ∀ c' t, c' ≠ c → s' = s.put c' t → serverOf [e] = [] → shownTo c [e] = [] →
      ScreenInv c (serverOf (tr ++ [e])) s' (shownTo c (tr ++ [e])) := by
    intro c' t hc h1 h2 h3
    rw [serverOf_append, shownTo_append, h1, h2, h3]
    have e1 : (s.put c' t).terms c = s.terms c := upd_other _ _ (Ne.symm hc)
    refine ⟨k, tail, ?_⟩
    rw [e1, List.append_nil, List.append_nil]
    exact ⟨i1, i2, i3, i4, i5, i6⟩
  have mine : ∀ t (R : List Resp), s' = s.put c t → serverOf [e] = [] → shownTo c [e] = R → (∃ k tail, t.screen = onScreen (shownTo c tr ++ R) ++ unsentRounds k ++ tail ∧
      (t.pc = .top → tail = []) ∧ (t.pc = .asking ∨ t.pc = .waiting → tail = [.print b!">>> "]) ∧
      (t.pc = .over → tail = [.print b!">>> "] ∨ tail = [.print b!">>> ", .readError]) ∧
      (0 < k → Desk.cutOff s c ∧ (answersTo c (seenIn (serverOf tr))).length = (shownTo c tr ++ R).length) ∧
      (0 < k ∨ .readError ∈ tail → .expired ∈ lineOf c (serverOf tr) ∨ ¬ s.full.up ∨ s.gone = true)) → ScreenInv c (serverOf (tr ++ [e])) s' (shownTo c (tr ++ [e])) := by
    rintro t R h1 h2 h3 ⟨k, tail, h4⟩
    rw [serverOf_append, shownTo_append, h1, h2, h3, List.append_nil]
    have e1 : (s.put c t).terms c = t := upd_same _ _ _
    refine ⟨k, tail, ?_⟩
    rw [e1]
    exact h4
  have why : (s.terms c).pc ≠ .over → Desk.cutOff s c → .expired ∈ lineOf c (serverOf tr) ∨ ¬ s.full.up ∨ s.gone = true := by
    intro hp hc
    rcases hc with hc | hc
    · exact .inl (closed_expired hfx (ht.here hp).2 (.inl hc))
    · exact .inr hc
  cases hs with
  | gone =>
    rw [serverOf_append, shownTo_append, show serverOf [.gone] = [] from rfl, show shownTo c [.gone] = [] from rfl, List.append_nil, List.append_nil]
    exact ⟨k, tail, i1, i2, i3, i4, fun hk => ⟨(i5 hk).1.imp_right fun _ => .inr rfl, (i5 hk).2⟩, fun _ => .inr (.inr rfl)⟩
  | server e f hg h1 h2 =>
    have hup := full_up h2
    have e1 : (Desk.moved U s.terms e c).pc = (s.terms c).pc ∧ (Desk.moved U s.terms e c).screen = (s.terms c).screen := by
      rcases server_cases (U := U) h2 s.terms c with ⟨b, rfl⟩ | ⟨-, h⟩
      · simp [Desk.moved, hu, upd]
      · rw [h]; exact ⟨rfl, rfl⟩
    have e2 : serverOf [.server e] = [e] := rfl
    have e3 : shownTo c [.server e] = [] := rfl
    rw [serverOf_append, shownTo_append, e2, e3, List.append_nil]
    refine ⟨k, tail, ?_⟩
    simp only [e1]
    refine ⟨i1, i2, i3, i4, fun hk => ?_, fun hk => ?_⟩
    · obtain ⟨j1, j2⟩ := i5 hk
      rcases j1 with j1 | j1
      · refine ⟨.inl (sock_stays ((full_step h2).2 c) j1), ?_⟩
        rw [seenIn_append, answersTo_append, no_more_answers h2 j1, List.append_nil]
        exact j2
      · exact absurd j1 (by simp [hup, hg])
    · rcases i6 hk with j | j
      · left; rw [lineOf_append]; simp [j]
      · exact absurd j (by simp [hup, hg])
  | prompt c' h1 h2 =>
    by_cases hc : c' = c
    · subst hc
      refine mine _ [] rfl rfl rfl ⟨k, [.print b!">>> "], ?_, by simp, by simp, by simp, by simpa using i5, ?_⟩
      · rw [i1, i2 h2]; simp [Client.prompt]
      · simpa [i2 h2] using i6
    · exact other c' _ hc rfl rfl rfl
  | typed c' l req h1 h2 h3 h4 =>
    by_cases hc : c' = c
    · subst hc
      exact mine _ [] rfl rfl rfl ⟨k, tail, by rw [List.append_nil]; exact i1, by simp, fun _ => i3 (.inl h2), by simp, by simpa using i5, i6⟩
    · exact other c' _ hc rfl rfl rfl
  | unsent c' l req h1 h2 h3 h4 h5 =>
    by_cases hc : c' = c
    · subst hc
      refine mine _ [] rfl rfl rfl ⟨k + 1, [], ?_, by simp, by simp, by simp, fun _ => ⟨h5, ?_⟩, fun _ => why (by simp [h2]) h5⟩
      · rw [i1, i3 (.inl h2)]
        simp [unsentRounds, List.replicate_succ']
      · rw [List.append_nil]
        have := ht.fewer hfx
        have := ht.count.2.1 (.inr h2)
        omega
    · exact other c' _ hc rfl rfl rfl
  | quit c' h1 h2 =>
    by_cases hc : c' = c
    · subst hc
      exact mine _ [] rfl rfl rfl ⟨k, tail, by rw [List.append_nil]; exact i1, by simp, by simp, fun _ => .inl (i3 (.inl h2)), by simpa using i5, i6⟩
    · exact other c' _ hc rfl rfl rfl
  | took c' b h1 h2 h3 h4 h5 =>
    by_cases hc : c' = c
    · subst hc
      exact mine _ [] rfl rfl rfl ⟨k, tail, by rw [List.append_nil]; exact i1, by simp [h2], fun _ => i3 (.inr h2), by simp [h2], by simpa using i5, i6⟩
    · exact other c' _ hc rfl rfl rfl
  | failed c' h1 h2 h3 =>
    by_cases hc : c' = c
    · subst hc
      have hr : .expired ∈ lineOf c' (serverOf tr) ∨ ¬ s.full.up ∨ s.gone = true := by
        rcases h3 with h3 | ⟨-, h3⟩
        · rcases ht.next h0 hfx ho' (by simp [h2]) with v | ⟨-, v⟩ | ⟨r, rest, v, -⟩
          · rw [h3] at v; cases v
          · exact .inl (closed_expired hfx (ht.here (by simp [h2])).2 (.inr v))
          · rw [h3] at v; cases v
        · exact why (by simp [h2]) h3
      refine mine _ [] rfl rfl rfl ⟨k, [.print b!">>> ", .readError], ?_, by simp, by simp, by simp, by simpa using i5, fun _ => hr⟩
      rw [i1, i3 (.inr h2)]
      simp
    · exact other c' _ hc rfl rfl rfl
  | crash c' h1 h2 h3 =>
    by_cases hc : c' = c
    · subst hc
      rcases ht.next h0 hfx ho' (by simp [h2]) with v | ⟨v, -⟩ | ⟨r, rest, v, -⟩ <;> (rw [h3] at v; cases v)
    · exact other c' _ hc rfl rfl rfl
  | choke c' l h1 h2 h3 h4 =>
    by_cases hc : c' = c
    · obtain ⟨ws, -, hok⟩ := C52_sent l
      rw [h4] at hok
      cases hok
    · exact other c' _ hc rfl rfl rfl
  | shown c' r rest h1 h2 h3 =>
    by_cases hc : c' = c
    · subst hc
      have hk0 : k = 0 := by
        by_contra hk
        obtain ⟨-, j2⟩ := i5 (by omega)
        rcases ht.next h0 hfx ho' (by simp [h2]) with v | ⟨v, -⟩ | ⟨r', rest', v, ⟨n, env, v2, -⟩, -⟩
        · rw [h3] at v; cases v
        · rw [h3] at v; cases v
        · have := (List.getElem?_eq_some_iff.1 v2).1
          omega
      subst hk0
      refine mine _ [r] rfl rfl (by simp [shownTo]) ⟨0, [], ?_, by simp, by simp, by simp, by simp, by simp⟩
      rw [i1, i3 (.inr h2)]
      simp [onScreen, unsentRounds]
    · exact other c' _ hc rfl rfl (by simp [shownTo, hc])

/-- C85: the screen of a user: after each prompt the reply to the line typed there; then perhaps prompts at which nothing could be sent any more; and then
nothing, a prompt, or a prompt and the message that reading failed. Failures happen only when the timer of the connection has fired or the server has
died or ended. The client itself never crashes. -/
theorem C85_screen {a0 : DB} (h0 : Abs st a0) {tr : List Desk.Ev} {s : Desk.Sys} (h : Exec (Desk.Step ω U) (Desk.new d st) tr s)
    (ho : ∀ x ∈ doneIn (seenIn (serverOf tr)), x.2.1.ord.Fair ∧ Sized x.2.2) {c : Nat} (hu : U c = true) :
    (shownTo c tr).length ≤ (typedBy c tr).length ∧ (typedBy c tr).length ≤ (shownTo c tr).length + 1 ∧
    ∃ k tail, (s.terms c).screen = onScreen (shownTo c tr) ++ unsentRounds k ++ tail ∧
      (tail = [] ∨ tail = [.print b!">>> "] ∨ tail = [.print b!">>> ", .readError]) ∧
      (0 < k ∨ tail = [.print b!">>> ", .readError] → .expired ∈ lineOf c (serverOf tr) ∨ ¬ s.full.up ∨ s.gone = true) := by
  have ht := termInv h0 h ho hu
  have hf := ht.fewer (C85_parts h)
  obtain ⟨k, tail, i1, i2, i3, i4, -, i6⟩ := (screenInv h0 h ho hu).screen
  refine ⟨by omega, ht.count.1, k, tail, i1, ?_, fun hk => i6 (hk.imp_right fun e => by simp [e])⟩
  cases hp : (s.terms c).pc with
  | top => exact .inl (i2 hp)
  | asking => exact .inr (.inl (i3 (.inl hp)))
  | waiting => exact .inr (.inl (i3 (.inr hp)))
  | over => exact .inr (i4 hp)

/-! ### What can happen -/

theorem typable_line {b : Bytes} (h : Typable b) : ∃ l, Desk.isLine l ∧ Client.formatInput l = .ok b := by
  obtain ⟨input, l, ws, h1, h2, h3, h4, rfl⟩ := h
  obtain ⟨ws', h5, h6⟩ := C52_sent l
  rw [C52_words_unique h4 h5]
  exact ⟨l, ⟨input, h1.1, h1.2, taken_dropCR h2, fun e => h3 (.inr e), fun e => h3 (.inl e)⟩, h6⟩

/-- A step that leaves a connection alone. -/
theorem smooth_step {f f' : Full.Sys} {e : Full.Ev} (hs : Full.Step ω f e f') {c : Nat} (hc : ∀ x ∈ lineOf c [e], smooth x = true) :
    (∃ n b, e = .both (.net (.pipe (.wrote c n b))) c (.wrote 1 b) ∧ (f'.lines c).out = (f.lines c).out ++ [.reply b]) ∨
    (f'.lines c).out = (f.lines c).out ∧ answersTo c (seenIn [e]) = [] := by
  have e1 : ∀ c' x, lineOf c [.line c' x] = if c' = c then [x] else [] := by
    intro c' x; simp only [lineOf, List.filterMap_cons, List.filterMap_nil]; split <;> simp_all
  have e2 : ∀ w c' x, lineOf c [.both w c' x] = if c' = c then [x] else [] := by
    intro w c' x; simp only [lineOf, List.filterMap_cons, List.filterMap_nil]; split <;> simp_all
  have quiet : ∀ c' (x : Conn.Sys), f'.lines = upd f.lines c' x → (c' = c → x.out = (f.lines c).out) → (f'.lines c).out = (f.lines c).out := by
    intro c' x h1 h2
    rw [h1]
    by_cases hcc : c = c'
    · subst hcc; rw [upd_same]; exact h2 rfl
    · rw [upd_other _ _ hcc]
  cases hs with
  | whole e w h1 h2 => exact .inr ⟨rfl, (apart_quiet h1 c).1⟩
  | send | kill => exact .inr ⟨rfl, rfl⟩
  | readCall c' x _ _ _ _ h | closeCall c' x _ _ _ h | writeCall _ c' _ x _ _ h => exact .inr ⟨quiet c' x rfl (by rintro rfl; cases h; rfl), rfl⟩
  | cut c' x _ _ h => exact .inr ⟨quiet c' x rfl (by rintro rfl; cases h; rfl), rfl⟩
  | own c' e x _ _ h0 h =>
    refine .inr ⟨quiet c' x rfl ?_, rfl⟩
    rintro rfl
    have := hc e (by simp [e1])
    cases h <;> first | rfl | (simp [Full.own] at h0; done) | (simp [smooth] at this; done)
  | read c' _ _ _ x _ h | finish c' _ _ x _ _ h => exact .inr ⟨quiet c' x rfl (by rintro rfl; cases h; rfl), rfl⟩
  | refuse _ c' _ _ x _ _ h => exact .inr ⟨quiet c' x rfl (by rintro rfl; cases h; rfl), rfl⟩
  | fail _ c' b _ x _ h =>
    refine .inr ⟨quiet c' x rfl ?_, rfl⟩
    rintro rfl
    have := hc (.writeErr 1 b) (by simp [e2])
    simp [smooth] at this
  | wrote n c' b w x h1 h =>
    by_cases hcc : c' = c
    · subst hcc
      refine .inl ⟨n, b, rfl, ?_⟩
      cases h
      simp [upd]
    · exact .inr ⟨quiet c' x rfl fun e => absurd e hcc, by simp [seenIn, wholeOf, netOf, answersTo, hcc]⟩

/-- The client at `c` has read all there is, and waits for what is to come. -/
structure Ready (c : Nat) (ftr : List Full.Ev) (s : Desk.Sys) (tr : List Desk.Ev) : Prop where
  sent : (s.terms c).sent = []
  pos : (s.terms c).pos = (wireOf (s.full.lines c).out).length
  buf : (s.terms c).buf = []
  pc : ((s.terms c).pc = .top ∧ (piecesOf c (seenIn ftr)).length = (answersTo c (seenIn ftr)).length) ∨
    ((s.terms c).pc = .waiting ∧ (piecesOf c (seenIn ftr)).length = (answersTo c (seenIn ftr)).length + 1)
  typed : (typedBy c tr).length = (piecesOf c (seenIn ftr)).length
  shown : (shownTo c tr).length = (answersTo c (seenIn ftr)).length

theorem attended_prefix {c : Nat} {a b : List Full.Ev} (h : Attended c (a ++ b)) : Attended c a := by
  refine ⟨fun x hx => h.smooth x (by rw [lineOf_append]; simp [hx]), fun hx => h.stays (by rw [seenIn_append]; simp [hx]), fun before x after he => ?_⟩
  exact h.lines before x (after ++ seenIn b) (by rw [seenIn_append, he]; simp)

/-- Whatever happens next at the server, if its users behave like that, they can. -/
theorem attend_step {a0 : DB} (h0 : Abs st a0) {tr : List Desk.Ev} {s : Desk.Sys} (d1 : Exec (Desk.Step ω U) (Desk.new d st) tr s) (hg : s.gone = false)
    (d4 : ∀ c, U c = true → Ready c (serverOf tr) s tr) {e : Full.Ev} {f' : Full.Sys} (hs : Full.Step ω s.full e f')
    (ho : ∀ x ∈ doneIn (seenIn (serverOf tr ++ [e])), x.2.1.ord.Fair ∧ Sized x.2.2) (hU : ∀ c, U c = true → Attended c (serverOf tr ++ [e])) :
    ∃ pre post s1 s', (∀ x ∈ pre ++ post, Desk.ofUser x = true) ∧ Exec (Desk.Step ω U) s pre s1 ∧ s1.full = s.full ∧ s1.gone = false ∧ Desk.fits U s1.terms e ∧
      Exec (Desk.Step ω U) ⟨f', Desk.moved U s1.terms e, false⟩ post s' ∧ s'.full = f' ∧ s'.gone = false ∧
      ∀ c, U c = true → Ready c (serverOf tr ++ [e]) s' (tr ++ (pre ++ .server e :: post)) := by
  have hsm : ∀ c, U c = true → ∀ x ∈ lineOf c [e], smooth x = true := fun c hc x hx => (hU c hc).smooth x (by rw [lineOf_append]; simp [hx])
  -- what is so of users not concerned
  have rest : ∀ (s2 : Desk.Sys) (ls : List Desk.Ev) c, U c = true → s2.full = f' → s2.terms c = s.terms c → typedBy c ls = [] → shownTo c ls = [] →
      piecesOf c (seenIn [e]) = [] → answersTo c (seenIn [e]) = [] → (f'.lines c).out = (s.full.lines c).out → Ready c (serverOf tr ++ [e]) s2 (tr ++ ls) := by
    intro s2 ls c hc h1 h2 h3 h4 h5 h6 h7
    have r := d4 c hc
    constructor
    · rw [h2]; exact r.sent
    · rw [h2, h1, h7]; exact r.pos
    · rw [h2]; exact r.buf
    · rw [h2, seenIn_append, piecesOf_append, answersTo_append, h5, h6, List.append_nil, List.append_nil]; exact r.pc
    · rw [typedBy_append, h3, seenIn_append, piecesOf_append, h5, List.append_nil, List.append_nil]; exact r.typed
    · rw [shownTo_append, h4, seenIn_append, answersTo_append, h6, List.append_nil, List.append_nil]; exact r.shown
  by_cases harr : ∃ c b, U c = true ∧ e = .whole (.net (.feed c (.arrived b)))
  · -- a line arrives
    obtain ⟨c, b, hc, rfl⟩ := harr
    have r := d4 c hc
    obtain ⟨g1, g2⟩ := (hU c hc).lines (seenIn (serverOf tr)) b [] (by rw [seenIn_append]; rfl)
    obtain ⟨l, hl, hf⟩ := typable_line g1
    have hpc : (s.terms c).pc = .top := by
      rcases r.pc with ⟨h, -⟩ | ⟨-, h⟩
      · exact h
      · omega
    obtain ⟨s1, q1, q2, q3, q4⟩ : ∃ s1, Desk.Step ω U s (.prompted c) s1 ∧ (s1.full = s.full ∧ s1.gone = false) ∧ (∀ c', c' ≠ c → s1.terms c' = s.terms c') ∧
        (s1.terms c).pc = .asking ∧ (s1.terms c).sent = [] ∧ (s1.terms c).pos = (s.terms c).pos :=
      ⟨_, .prompt c hc hpc, ⟨rfl, hg⟩, fun c' h => upd_other _ _ h, by simp [Desk.Sys.put, upd, r.sent]⟩
    obtain ⟨s2, q5, q6, q7, q8⟩ : ∃ s2, Desk.Step ω U s1 (.typed c l) s2 ∧ (s2.full = s.full ∧ s2.gone = false) ∧ (∀ c', c' ≠ c → s2.terms c' = s.terms c') ∧
        (s2.terms c).pc = .waiting ∧ (s2.terms c).sent = b ∧ (s2.terms c).pos = (s.terms c).pos ∧ (s2.terms c).buf = [] :=
      ⟨_, .typed c l b hc q4.1 hl hf, q2, fun c' h => (upd_other _ _ h).trans (q3 c' h), by simp [Desk.Sys.put, upd, q4.2.1, q4.2.2]⟩
    have hfit : Desk.fits U s2.terms (.whole (.net (.feed c (.arrived b)))) := fun _ => by rw [q8.2.1]
    refine ⟨[.prompted c, .typed c l], [], s2, _, by simp [Desk.ofUser], .cons q1 (.one q5), q6.1, q6.2, hfit, .nil, rfl, rfl, ?_⟩
    intro c' hc'
    by_cases hcc : c' = c
    · subst hcc
      have hout := (smooth_step hs (hsm c' hc')).resolve_left (by rintro ⟨n, b, h, -⟩; cases h)
      have hm : Desk.moved U s2.terms (.whole (.net (.feed c' (.arrived b)))) c' = { s2.terms c' with sent := [] } := by
        simp [Desk.moved, hc', upd, q8.2.1]
      have hp1 : piecesOf c' (seenIn [.whole (.net (.feed c' (.arrived b)))]) = [b] := by simp [seenIn, wholeOf, netOf, piecesOf]
      constructor
      · simp only [hm]
      · simp only [hm, hout.1]; rw [q8.2.2.1]; exact r.pos
      · simp only [hm]; exact q8.2.2.2
      · right
        simp only [hm]
        rw [seenIn_append, piecesOf_append, answersTo_append, hout.2, hp1]
        exact ⟨q8.1, by simpa using g2⟩
      · rw [typedBy_append, seenIn_append, piecesOf_append, hp1, List.length_append, List.length_append, r.typed]
        simp [typedBy]
      · rw [shownTo_append, seenIn_append, answersTo_append, hout.2]
        simpa [shownTo] using r.shown
    · have hout := (smooth_step hs (hsm c' hc')).resolve_left (by rintro ⟨n, b, h, -⟩; cases h)
      refine rest _ _ c' hc' rfl ?_ ?_ rfl ?_ hout.2 hout.1
      · have : Desk.moved U s2.terms (.whole (.net (.feed c (.arrived b)))) c' = s2.terms c' := by
          simp [Desk.moved, hc, upd, hcc]
        rw [show (Desk.Sys.mk f' (Desk.moved U s2.terms (.whole (.net (.feed c (.arrived b))))) false).terms c' = Desk.moved U s2.terms (.whole (.net (.feed c (.arrived b)))) c' from rfl, this]
        exact q7 c' hcc
      · simp [typedBy, Ne.symm hcc]
      · simp [seenIn, wholeOf, netOf, piecesOf, Ne.symm hcc]
  -- the server does something else
  have hcase : ∀ c, U c = true → piecesOf c (seenIn [e]) = [] ∧ Desk.moved U s.terms e c = s.terms c := fun c hc =>
    (server_cases (U := U) hs s.terms c).resolve_left (by rintro ⟨b, rfl⟩; exact harr ⟨c, b, hc, rfl⟩)
  have hfit : Desk.fits U s.terms e := by
    unfold Desk.fits
    split
    · exact fun hc => absurd ⟨_, _, hc, rfl⟩ harr
    · intro hc
      exact absurd (by rw [seenIn_append]; simp [seenIn, wholeOf, netOf]) (hU _ hc).stays
    · intro hc
      have := hsm _ hc (.client .gone) (by simp [lineOf])
      simp [smooth] at this
    · trivial
  have q1 : Desk.Step ω U s (.server e) _ := .server e f' hg hfit hs
  by_cases hwr : ∃ c n b, U c = true ∧ e = .both (.net (.pipe (.wrote c n b))) c (.wrote 1 b)
  · -- a reply is written
    obtain ⟨c, n, b, hc, rfl⟩ := hwr
    have r := d4 c hc
    have hex := d1.snoc q1
    have hfe : serverOf (tr ++ [.server (.both (.net (.pipe (.wrote c n b))) c (.wrote 1 b))]) = serverOf tr ++ [.both (.net (.pipe (.wrote c n b))) c (.wrote 1 b)] := by
      rw [serverOf_append]; rfl
    have ht := termInv h0 hex (by rw [hfe]; exact ho) hc
    have hfr := answer_framed h0 ht.lines (C85_parts hex) (by rw [hfe]; exact ho) (n := n) (b := b)
      (by rw [hfe, seenIn_append, answersTo_append]; simp [seenIn, wholeOf, netOf, answersTo])
    obtain ⟨env, r', -, rfl, hr⟩ := hfr
    have hA : answersTo c (seenIn [.both (.net (.pipe (.wrote c n r'.encode))) c (.wrote 1 r'.encode)]) = [(n, r'.encode)] := by simp [seenIn, wholeOf, netOf, answersTo]
    have hlen := (ht.fewer (C85_parts hex)).2
    rw [hfe, typedBy_append] at hlen
    simp only [seenIn_append, answersTo_append, hA, List.length_append, List.length_singleton] at hlen
    have hpc : (s.terms c).pc = .waiting := by
      rcases r.pc with ⟨-, h⟩ | ⟨h, -⟩
      · have h1 := r.typed
        have h2 : (typedBy c [Desk.Ev.server (.both (.net (.pipe (.wrote c n r'.encode))) c (.wrote 1 r'.encode))]).length = 0 := rfl
        omega
      · exact h
    have hout : (f'.lines c).out = (s.full.lines c).out ++ [.reply r'.encode] := by
      rcases smooth_step hs (hsm c hc) with ⟨n', b', h1, h2⟩ | ⟨-, h2⟩
      · cases h1; exact h2
      · rw [hA] at h2; cases h2
    have hm := (hcase c hc).2
    have hparse : parse r'.encode = .ok r' [] := by simpa using hr []
    have hne : r'.encode ≠ [] := by
      intro e0
      rw [e0] at hparse
      cases hparse
    generalize hs1 : Desk.Sys.mk f' (Desk.moved U s.terms (.both (.net (.pipe (.wrote c n r'.encode))) c (.wrote 1 r'.encode))) false = s1 at q1 hex ht
    have hg1 : s1.gone = false := by rw [← hs1]
    have ht1 : ∀ c', s1.terms c' = Desk.moved U s.terms (.both (.net (.pipe (.wrote c n r'.encode))) c (.wrote 1 r'.encode)) c' := fun c' => by rw [← hs1]
    have hf1 : s1.full = f' := by rw [← hs1]
    obtain ⟨s2, q2, q3, q4, q5⟩ : ∃ s2, Desk.Step ω U s1 (.took c r'.encode) s2 ∧ (s2.full = f' ∧ s2.gone = false) ∧ (∀ c', c' ≠ c → s2.terms c' = s1.terms c') ∧
        (s2.terms c).pc = .waiting ∧ (s2.terms c).sent = [] ∧ (s2.terms c).pos = (s.terms c).pos + r'.encode.length ∧ (s2.terms c).buf = r'.encode := by
      refine ⟨_, .took c r'.encode hc (by rw [ht1, hm]; exact hpc) (by rw [ht1, hm, r.buf]; rfl) hne ?_, ⟨hf1, hg1⟩, fun c' h => upd_other _ _ h, ?_⟩
      · rw [hf1, hout, wire_eq, wireOf_append, ht1, hm, r.pos, List.drop_left]
        simp [wireOf]
      · simp [Desk.Sys.put, upd, ht1, hm, hpc, r.sent, r.buf]
    obtain ⟨s3, q6, q7, q8, q9⟩ : ∃ s3, Desk.Step ω U s2 (.shown c r') s3 ∧ (s3.full = f' ∧ s3.gone = false) ∧ (∀ c', c' ≠ c → s3.terms c' = s1.terms c') ∧
        (s3.terms c).pc = .top ∧ (s3.terms c).sent = [] ∧ (s3.terms c).pos = (s.terms c).pos + r'.encode.length ∧ (s3.terms c).buf = [] := by
      refine ⟨_, .shown c r' [] hc q5.1 (by rw [q5.2.2.2]; exact hparse), q3, fun c' h => (upd_other _ _ h).trans (q4 c' h), ?_⟩
      simp [Desk.Sys.put, upd, q5.2.1, q5.2.2.1]
    refine ⟨[], [.took c r'.encode, .shown c r'], s, s3, by simp [Desk.ofUser], .nil, rfl, hg, hfit, ?_, q7.1, q7.2, ?_⟩
    · rw [hs1]; exact .cons q2 (.one q6)
    intro c' hc'
    by_cases hcc : c' = c
    · subst hcc
      constructor
      · exact q9.2.1
      · rw [q9.2.2.1, q7.1, hout, wireOf_append, List.length_append, r.pos]; simp [wireOf]
      · exact q9.2.2.2
      · left
        rw [seenIn_append, piecesOf_append, answersTo_append, hA, (hcase c' hc').1]
        have := r.typed
        rcases r.pc with ⟨h, -⟩ | ⟨-, h⟩
        · rw [hpc] at h; cases h
        · exact ⟨q9.1, by simpa using h⟩
      · rw [typedBy_append, seenIn_append, piecesOf_append, (hcase c' hc').1]
        simpa [typedBy] using r.typed
      · rw [shownTo_append, seenIn_append, answersTo_append, hA, List.length_append, List.length_append, r.shown]
        simp [shownTo]
    · have hA' : answersTo c' (seenIn [.both (.net (.pipe (.wrote c n r'.encode))) c (.wrote 1 r'.encode)]) = [] := by
        simp [seenIn, wholeOf, netOf, answersTo, Ne.symm hcc]
      have hout' : (f'.lines c').out = (s.full.lines c').out := by
        rcases smooth_step hs (hsm c' hc') with ⟨n', b', h1, h2⟩ | ⟨h2, -⟩
        · cases h1; exact absurd rfl hcc
        · exact h2
      refine rest _ _ c' hc' q7.1 ((q8 c' hcc).trans ((ht1 c').trans (hcase c' hc').2)) rfl ?_ (hcase c' hc').1 hA' hout'
      simp [shownTo, Ne.symm hcc]
  · refine ⟨[], [], s, _, by simp, .nil, rfl, hg, hfit, .nil, rfl, rfl, fun c hc => ?_⟩
    · have hout := (smooth_step hs (hsm c hc)).resolve_left (by rintro ⟨n, b, rfl, -⟩; exact hwr ⟨c, n, b, hc, rfl⟩)
      exact rest _ _ c hc rfl (hcase c hc).2 rfl rfl (hcase c hc).1 hout.2 hout.1

theorem user_server {tr : List Desk.Ev} (h : ∀ x ∈ tr, Desk.ofUser x = true) : serverOf tr = [] := by
  rw [serverOf, List.filterMap_eq_nil_iff]
  intro x hx
  have := h x hx
  cases x <;> simp_all [Desk.ofUser]

/-- Clients at terminals can be put to connections at which somebody behaves like a user. -/
theorem attended_desk {a0 : DB} (h0 : Abs st a0) {ftr : List Full.Ev} {f : Full.Sys} (hx : Exec (Full.Step ω) (Full.new d st) ftr f)
    (ho : ∀ x ∈ doneIn (seenIn ftr), x.2.1.ord.Fair ∧ Sized x.2.2) (hU : ∀ c, U c = true → Attended c ftr) :
    ∃ tr s, Exec (Desk.Step ω U) (Desk.new d st) tr s ∧ serverOf tr = ftr ∧ s.full = f ∧ s.gone = false ∧ ∀ c, U c = true → Ready c ftr s tr := by
  revert ho hU
  refine hx.inv (P := fun ftr f => (∀ x ∈ doneIn (seenIn ftr), x.2.1.ord.Fair ∧ Sized x.2.2) → (∀ c, U c = true → Attended c ftr) →
    ∃ tr s, Exec (Desk.Step ω U) (Desk.new d st) tr s ∧ serverOf tr = ftr ∧ s.full = f ∧ s.gone = false ∧ ∀ c, U c = true → Ready c ftr s tr)
    (fun _ _ => ⟨[], _, .nil, rfl, rfl, rfl, fun c _ => ⟨rfl, rfl, rfl, .inl ⟨rfl, rfl⟩, rfl, rfl⟩⟩) ?_
  intro ftr f e f' hxf ih hs ho hU
  have ho' : ∀ x ∈ doneIn (seenIn ftr), x.2.1.ord.Fair ∧ Sized x.2.2 := fun x hx => ho x (by rw [seenIn_append, doneIn_append]; simp [hx])
  obtain ⟨tr, s, d1, rfl, rfl, d3, d4⟩ := ih ho' fun c hc => attended_prefix (hU c hc)
  obtain ⟨pre, post, s1, s', g1, g2, g3, g4, g5, g6, g7, g8, g9⟩ := attend_step h0 d1 d3 d4 hs ho hU
  refine ⟨_, s', d1.append (g2.append (.cons (.server e f' g4 g5 (by rw [g3]; exact hs)) g6)), ?_, g7, g8, g9⟩
  have e1 : serverOf pre = [] := user_server fun x hx => g1 x (by simp [hx])
  have e2 : serverOf post = [] := user_server fun x hx => g1 x (by simp [hx])
  rw [serverOf_append, serverOf_append, e1, show serverOf (.server e :: post) = e :: serverOf post from rfl, e2]
  rfl

/-- C85: whatever happens at the server, if some of its clients behave like users at terminals and their connections are left alone, it can happen with
command line clients there, which show every reply. -/
theorem C85_possible {a0 : DB} (h0 : Abs st a0) {ftr : List Full.Ev} {f : Full.Sys} (hx : Exec (Full.Step ω) (Full.new d st) ftr f)
    (ho : ∀ x ∈ doneIn (seenIn ftr), x.2.1.ord.Fair ∧ Sized x.2.2) (hU : ∀ c, U c = true → Attended c ftr) :
    ∃ tr s, Exec (Desk.Step ω U) (Desk.new d st) tr s ∧ serverOf tr = ftr ∧ s.full = f ∧
      ∀ c, U c = true → (typedBy c tr).length = (piecesOf c (seenIn ftr)).length ∧ (shownTo c tr).length = (answersTo c (seenIn ftr)).length := by
  obtain ⟨tr, s, h1, h2, h3, -, h4⟩ := attended_desk h0 hx ho hU
  exact ⟨tr, s, h1, h2, h3, fun c hc => ⟨(h4 c hc).typed, (h4 c hc).shown⟩⟩

/-! ### Examples -/

/-- Client 7 sets a key and is answered; then client 8 asks for it and is answered. -/
abbrev deskTrace : List Net.Ev :=
  [.pipe (.connected 7), .pipe (.connected 8), .feed 7 (.arrived setBytes), .read 7 0 (.array (req [b!"set", b!"k", b!"1"])), .pipe (.taken 0),
    .pipe (.executed 0 env0 (.simple b!"OK")), .pipe (.queued 0), .pipe (.answering 0), .pipe (.wrote 7 0 b!"+OK\r\n"), .feed 8 (.arrived getBytes),
    .read 8 1 (.array (req [b!"get", b!"k"])), .pipe (.taken 1), .pipe (.executed 1 env0 (.bulk b!"1")), .pipe (.queued 1), .pipe (.answering 1),
    .pipe (.wrote 8 1 b!"$1\r\n1\r\n")]

theorem desk_net : ∃ n, Exec Net.Step (Net.new State.empty) deskTrace n :=
  ⟨_,
    .cons (.pipe _ _ rfl rfl (.connect 7 b!"a" rfl rfl (fun _ => by simp [Net.new, Pipe.new])))
    (.cons (.pipe _ _ rfl rfl (.connect 8 b!"b" rfl rfl (fun c => by simp only [Net.new, Pipe.new, upd]; split <;> simp)))
    (.cons (.feed 7 _ _ rfl rfl (by simp [upd]) rfl (.arrive _ rfl))
    (.cons (.read 7 0 _ _ _ rfl (.read _ [] rfl setBytes_parse) (.read 7 b!"a" _ rfl rfl))
    (.cons (.pipe _ _ rfl rfl (.take 0 _ [] [] rfl rfl rfl))
    (.cons (.pipe _ _ rfl rfl (.execute 0 _ b!"a" (req [b!"set", b!"k", b!"1"]) env0 ⟨[(b!"k", Str.new b!"1")], [], [], []⟩ (.simple b!"OK") rfl rfl rfl rfl))
    (.cons (.pipe _ _ rfl rfl (.queue 0 _ [] [] rfl rfl (Nat.zero_lt_succ 99)))
    (.cons (.pipe _ _ rfl rfl (.answer 0 _ [] b!"a" (.simple b!"OK") 7 rfl rfl rfl rfl rfl))
    (.cons (.pipe _ _ rfl rfl (.write 0 7 _ rfl rfl))
    (.cons (.feed 8 _ _ rfl rfl (by simp [upd]) rfl (.arrive _ rfl))
    (.cons (.read 8 1 _ _ _ rfl (.read _ [] rfl getBytes_parse) (.read 8 b!"b" _ rfl rfl))
    (.cons (.pipe _ _ rfl rfl (.take 1 _ [] [] rfl rfl rfl))
    (.cons (.pipe _ _ rfl rfl (.execute 1 _ b!"b" (req [b!"get", b!"k"]) env0 ⟨[(b!"k", Str.new b!"1")], [], [], []⟩ (.bulk b!"1") rfl rfl rfl rfl))
    (.cons (.pipe _ _ rfl rfl (.queue 1 _ [] [] rfl rfl (Nat.zero_lt_succ 99)))
    (.cons (.pipe _ _ rfl rfl (.answer 1 _ [] b!"b" (.bulk b!"1") 8 rfl rfl rfl rfl rfl))
    (.one (.pipe _ _ rfl rfl (.write 1 8 _ rfl rfl)))))))))))))))))⟩

theorem set_typable : Typable setBytes :=
  ⟨b!"set k 1", b!"set k 1", [b!"set", b!"k", b!"1"], by simp [Line], .same fun p h => by
      have := congrArg List.getLast? h
      simp at this, by simp [Quits],
    .space (w := b!"set") (rest := b!"k 1") (by simp [Plain]) (.space (w := b!"k") (rest := b!"1") (by simp [Plain]) (.last (w := b!"1") (by simp [Plain]))), rfl⟩

theorem get_typable : Typable getBytes :=
  ⟨b!"get k", b!"get k", [b!"get", b!"k"], by simp [Line], .same fun p h => by
      have := congrArg List.getLast? h
      simp at this, by simp [Quits], .space (w := b!"get") (rest := b!"k") (by simp [Plain]) (.last (w := b!"k") (by simp [Plain])), rfl⟩

theorem desk_decent {ftr : List Full.Ev} (h2 : seenIn ftr = deskTrace) : ∀ x ∈ doneIn (seenIn ftr), x.2.1.ord.Fair ∧ Sized x.2.2 := by
  intro x hx
  simp only [h2, doneIn, List.mem_cons, List.not_mem_nil, or_false] at hx
  rcases hx with rfl | rfl
  · exact ⟨env0_fair, .simple⟩
  · exact ⟨env0_fair, .bulk (by decide)⟩

theorem desk_attended {ftr : List Full.Ev} (h2 : seenIn ftr = deskTrace) {c : Nat} (h3 : ∀ x ∈ lineOf c ftr, smooth x = true) : Attended c ftr := by
  refine ⟨h3, by simp [h2], fun before b after e => ?_⟩
  rw [h2] at e
  have hi : before.length < 16 := by
    have := congrArg List.length e
    simp at this
    omega
  have hb : before = deskTrace.take before.length := by rw [e]; simp
  have hg : deskTrace[before.length]? = some (.feed c (.arrived b)) := by rw [e]; simp
  generalize before.length = i at hb hg hi
  subst hb
  match i, hi, hg with
  | 2, _, hg =>
    obtain ⟨rfl, rfl⟩ : 7 = c ∧ setBytes = b := by simpa using hg
    exact ⟨set_typable, rfl⟩
  | 9, _, hg =>
    obtain ⟨rfl, rfl⟩ : 8 = c ∧ getBytes = b := by simpa using hg
    exact ⟨get_typable, rfl⟩
  | 0, _, hg | 1, _, hg | 3, _, hg | 4, _, hg | 5, _, hg | 6, _, hg | 7, _, hg | 8, _, hg | 10, _, hg | 11, _, hg | 12, _, hg | 13, _, hg | 14, _, hg | 15, _, hg => simp at hg

/-- What meets the hypotheses of `C85_possible`, `C85_one_database` and `C85_screen`: one user types `set k 1` and sees `OK`, then another one types `get k`
and sees `1`. -/
example (ω : Nat → Nat) (d : Bytes) : ∃ tr s, Exec (Desk.Step ω fun c => c == 7 || c == 8) (Desk.new d State.empty) tr s ∧
    (∀ x ∈ doneIn (seenIn (serverOf tr)), x.2.1.ord.Fair ∧ Sized x.2.2) ∧ (typedBy 7 tr).length = 1 ∧ shownTo 7 tr = [.simple b!"OK"] ∧
    (typedBy 8 tr).length = 1 ∧ shownTo 8 tr = [.bulk b!"1"] := by
  obtain ⟨n, hn⟩ := desk_net
  obtain ⟨ftr, f, h1, h2, -, -, h3⟩ := C82_open (ω := ω) (d := d) hn (by simp)
  have ho := desk_decent h2
  have hat : ∀ c, (c == 7 || c == 8) = true → Attended c ftr := fun c _ => desk_attended h2 (h3 c).2
  obtain ⟨tr, s, g1, rfl, rfl, g4⟩ := C85_possible (U := fun c => c == 7 || c == 8) abs_empty h1 ho hat
  have shows : ∀ c n r, (c == 7 || c == 8) = true → answersTo c deskTrace = [(n, r.encode)] → (∀ env r', (n, env, r') ∈ doneIn deskTrace → r' = r) → shownTo c tr = [r] := by
    intro c n r hc ha hd
    have hl := (g4 c hc).2
    rw [h2, ha] at hl
    match hR : shownTo c tr, hl with
    | [r'], _ =>
      obtain ⟨n', env, k1, k2⟩ := (termInv abs_empty g1 ho hc).shown 0 r' (by rw [hR]; rfl)
      rw [h2, ha] at k1
      rw [h2] at k2
      simp only [List.getElem?_cons_zero, Option.some.injEq, Prod.mk.injEq] at k1
      rw [hd env r' (k1.1 ▸ k2)]
  refine ⟨tr, s, g1, ho, ?_, shows 7 0 _ rfl rfl ?_, ?_, shows 8 1 _ rfl rfl ?_⟩
  · rw [(g4 7 rfl).1, h2]; rfl
  · intro env r' h; simp [doneIn] at h; exact h.2
  · rw [(g4 8 rfl).1, h2]; rfl
  · intro env r' h; simp [doneIn] at h; exact h.2

end Verif.Props
