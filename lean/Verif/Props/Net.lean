import Verif.Spec.Net
import Verif.Props.Feed
import Verif.Props.Pipe

/-! # C70 – from bytes to bytes -/

namespace Verif.Props

open Verif Spec Fut

variable {st : State} {tr : List Net.Ev} {s : Net.Sys}

/-- What happens at the reader of connection `c`. -/
def feedOf (c : Nat) : List Net.Ev → List Feed.Ev
  | [] => []
  | .feed c' e :: tr => if c' = c then e :: feedOf c tr else feedOf c tr
  | .read c' _ o :: tr => if c' = c then .read o :: feedOf c tr else feedOf c tr
  | _ :: tr => feedOf c tr

theorem feedOf_append (c : Nat) (a b : List Net.Ev) : feedOf c (a ++ b) = feedOf c a ++ feedOf c b := by
  induction a with
  | nil => rfl
  | cons e a ih => cases e <;> simp only [List.cons_append, feedOf, ih] <;> split <;> simp

theorem pipeOf_append (a b : List Net.Ev) : pipeOf (a ++ b) = pipeOf a ++ pipeOf b := by
  induction a with
  | nil => rfl
  | cons e a ih => cases e <;> simp [pipeOf, ih]

theorem piecesOf_append (c : Nat) (a b : List Net.Ev) : piecesOf c (a ++ b) = piecesOf c a ++ piecesOf c b := by
  induction a with
  | nil => rfl
  | cons e a ih =>
    cases e with
    | feed c' e => cases e <;> simp only [List.cons_append, piecesOf, ih]; split <;> simp
    | _ => simp only [List.cons_append, piecesOf, ih]

theorem askedBy_append (c : Nat) (a b : List Net.Ev) : askedBy c (a ++ b) = askedBy c a ++ askedBy c b := by
  induction a with
  | nil => rfl
  | cons e a ih => cases e <;> simp only [List.cons_append, askedBy, ih]; split <;> simp

theorem answersTo_append (c : Nat) (a b : List Net.Ev) : answersTo c (a ++ b) = answersTo c a ++ answersTo c b := by
  induction a with
  | nil => rfl
  | cons e a ih =>
    cases e with
    | pipe e => cases e <;> simp only [List.cons_append, answersTo, ih]; split <;> simp
    | _ => simp only [List.cons_append, answersTo, ih]

theorem doneIn_eq (tr : List Net.Ev) : doneIn tr = executedOf (pipeOf tr) := by
  induction tr with
  | nil => rfl
  | cons e a ih =>
    cases e with
    | pipe e => cases e <;> simp [doneIn, pipeOf, executedOf, ih]
    | _ => simp [doneIn, pipeOf, executedOf, ih]

theorem piecesOf_eq (c : Nat) (tr : List Net.Ev) : (piecesOf c tr).flatten = arrivedOf (feedOf c tr) := by
  induction tr with
  | nil => rfl
  | cons e a ih =>
    cases e with
    | feed c' e => cases e <;> simp only [piecesOf, feedOf, ih] <;> split <;> simp [arrivedOf, ih]
    | read c' n o => simp only [piecesOf, feedOf, ih]; split <;> simp [arrivedOf]
    | pipe e => simp only [piecesOf, feedOf, ih]

theorem askedBy_eq (c : Nat) {tr : List Net.Ev} (h : ∀ e ∈ tr, ∀ c o, e ≠ .feed c (.read o)) : (askedBy c tr).map Prod.snd = readOf (feedOf c tr) := by
  induction tr with
  | nil => rfl
  | cons e a ih =>
    have ih := ih fun e he => h e (by simp [he])
    cases e with
    | feed c' e =>
      cases e with
      | read o => exact absurd rfl (h _ (by simp) c' o)
      | _ => simp only [askedBy, feedOf, ih]; split <;> simp [readOf]
    | read c' n o => simp only [askedBy, feedOf]; split <;> simp [readOf, ih]
    | pipe e => simp only [askedBy, feedOf, ih]

theorem mem_askedBy {c n : Nat} {o : Resp} {tr : List Net.Ev} (h : ∀ e ∈ tr, ∀ c n o, e ≠ .pipe (.read c n o)) :
    (n, o) ∈ askedBy c tr ↔ (n, c, o) ∈ requestsOf (pipeOf tr) := by
  induction tr with
  | nil => simp [askedBy, pipeOf, requestsOf]
  | cons e a ih =>
    have ih := ih fun e he => h e (by simp [he])
    cases e with
    | pipe e =>
      cases e with
      | read c' n o => exact absurd rfl (h _ (by simp) c' n o)
      | _ => simp only [askedBy, pipeOf, requestsOf, ih]
    | read c' n' o' =>
      simp only [askedBy, pipeOf, requestsOf, List.mem_cons, Prod.mk.injEq, ← ih]
      split
      · next hc => subst hc; simp
      · next hc => simp [Ne.symm hc]
    | feed c e => simp only [askedBy, pipeOf, ih]

theorem mem_answersTo {c n : Nat} {b : Bytes} {tr : List Net.Ev} : (n, b) ∈ answersTo c tr ↔ (n, c, b) ∈ writtenOf (pipeOf tr) := by
  induction tr with
  | nil => simp [answersTo, pipeOf, writtenOf]
  | cons e a ih =>
    cases e with
    | pipe e =>
      cases e with
      | wrote c' n' b' =>
        simp only [answersTo, pipeOf, writtenOf, List.mem_cons, Prod.mk.injEq, ← ih]
        split
        · next hc => subst hc; simp
        · next hc => simp [Ne.symm hc]
      | _ => simp only [answersTo, pipeOf, writtenOf, ih]
    | _ => simp only [answersTo, pipeOf, writtenOf, ih]

/-- Every execution is one of each reader and one of what is inside. -/
theorem net_split (h : Exec Net.Step (Net.new st) tr s) :
    (∀ c, Exec Feed.Step Feed.new (feedOf c tr) (s.feeds c)) ∧ Exec Pipe.Step (Pipe.new st) (pipeOf tr) s.pipe ∧
    (∀ c, s.out c = ((answersTo c tr).map Prod.snd).flatten) ∧ (∀ e ∈ tr, ∀ c o, e ≠ .feed c (.read o)) ∧
    ∀ e ∈ tr, ∀ c n o, e ≠ .pipe (.read c n o) := by
  refine h.inv (P := fun tr s => (∀ c, Exec Feed.Step Feed.new (feedOf c tr) (s.feeds c)) ∧ Exec Pipe.Step (Pipe.new st) (pipeOf tr) s.pipe ∧
    (∀ c, s.out c = ((answersTo c tr).map Prod.snd).flatten) ∧ (∀ e ∈ tr, ∀ c o, e ≠ .feed c (.read o)) ∧
    ∀ e ∈ tr, ∀ c n o, e ≠ .pipe (.read c n o)) ⟨fun _ => .nil, .nil, fun _ => rfl, by simp, by simp⟩ ?_
  rintro tr s e s' - ⟨h1, h2, h3, h4, h5⟩ hs
  have hf : ∀ c e x, Feed.Step (s.feeds c) e x → ∀ c', Exec Feed.Step Feed.new (feedOf c' tr ++ if c = c' then [e] else []) (upd s.feeds c x c') := by
    intro c e x hx c'
    by_cases hc : c = c'
    · subst hc
      simpa [upd] using Exec.snoc (h1 c) hx
    · simpa [upd, hc, Ne.symm hc] using h1 c'
  cases hs with
  | feed c e x _ _ _ ha hx =>
    refine ⟨fun c' => ?_, by simpa [pipeOf_append, pipeOf] using h2, fun c' => by simpa [answersTo_append, answersTo] using h3 c', ?_, ?_⟩
    · simpa [feedOf_append, feedOf] using hf c e x hx c'
    · intro e' he' c' o
      rcases List.mem_append.1 he' with he' | he'
      · exact h4 _ he' _ _
      · simp only [List.mem_singleton] at he'
        subst he'
        rintro ⟨⟩
        cases ha
    · intro e' he'
      rcases List.mem_append.1 he' with he' | he'
      · exact h5 _ he'
      · simp only [List.mem_singleton] at he'
        subst he'
        simp
  | crash c x _ _ _ hx =>
    refine ⟨fun c' => ?_, by simpa [pipeOf_append, pipeOf] using h2, fun c' => by simpa [answersTo_append, answersTo] using h3 c', ?_, ?_⟩
    · simpa [feedOf_append, feedOf] using hf c .crash x hx c'
    · intro e' he'
      rcases List.mem_append.1 he' with he' | he'
      · exact h4 _ he'
      · simp only [List.mem_singleton] at he'
        subst he'
        simp
    · intro e' he'
      rcases List.mem_append.1 he' with he' | he'
      · exact h5 _ he'
      · simp only [List.mem_singleton] at he'
        subst he'
        simp
  | pipe e p _ hi hx =>
    refine ⟨fun c' => by simpa [feedOf_append, feedOf] using h1 c', by simpa [pipeOf_append, pipeOf] using Exec.snoc h2 hx, fun c' => ?_, ?_, ?_⟩
    · rw [answersTo_append]
      cases e with
      | wrote c n b =>
        simp only [Net.grow, answersTo, upd]
        by_cases hc : c = c'
        · subst hc; simp [h3]
        · simp [hc, Ne.symm hc, h3]
      | _ => simp [Net.grow, answersTo, h3]
    · intro e' he'
      rcases List.mem_append.1 he' with he' | he'
      · exact h4 _ he'
      · simp only [List.mem_singleton] at he'
        subst he'
        simp
    · intro e' he' c n o
      rcases List.mem_append.1 he' with he' | he'
      · exact h5 _ he' _ _ _
      · simp only [List.mem_singleton] at he'
        subst he'
        rintro ⟨⟩
        cases hi
  | read c n o x p _ hx hp =>
    refine ⟨fun c' => ?_, by simpa [pipeOf_append, pipeOf] using Exec.snoc h2 hp, fun c' => by simpa [answersTo_append, answersTo] using h3 c', ?_, ?_⟩
    · simpa [feedOf_append, feedOf] using hf c (.read o) x hx c'
    · intro e' he'
      rcases List.mem_append.1 he' with he' | he'
      · exact h4 _ he'
      · simp only [List.mem_singleton] at he'
        subst he'
        simp
    · intro e' he'
      rcases List.mem_append.1 he' with he' | he'
      · exact h5 _ he'
      · simp only [List.mem_singleton] at he'
        subst he'
        simp

/-- C70: the bytes a client sends are the requests read from it, in order, and the rest; the bytes it gets are the replies of different ones of these
requests, each the encoding of what executing the request gave, and nothing else. -/
theorem C70_streams (h : Exec Net.Step (Net.new st) tr s) (c : Nat) :
    (∃ used, TakenAll ((askedBy c tr).map Prod.snd) used ∧ (piecesOf c tr).flatten = used ++ (s.feeds c).pending) ∧
    s.out c = ((answersTo c tr).map Prod.snd).flatten ∧ ((answersTo c tr).map Prod.fst).Nodup ∧
    ∀ n b, (n, b) ∈ answersTo c tr → ∃ o env r, (n, o) ∈ askedBy c tr ∧ (n, env, r) ∈ doneIn tr ∧ b = r.encode := by
  obtain ⟨h1, h2, h3, h4, h5⟩ := net_split h
  refine ⟨?_, h3 c, ?_, ?_⟩
  · rw [askedBy_eq c h4, piecesOf_eq]
    exact C69_requests (h1 c)
  · have := (C46_once h2).2.2
    have hs : List.Sublist ((answersTo c tr).map Prod.fst) ((writtenOf (pipeOf tr)).map Prod.fst) := by
      clear h h1 h2 h3 h4 h5 this
      induction tr with
      | nil => exact .slnil
      | cons e a ih =>
        cases e with
        | pipe e =>
          cases e with
          | wrote c' n b =>
            simp only [answersTo, pipeOf, writtenOf]
            split
            · simpa using ih
            · exact .cons _ ih
          | _ => simpa [answersTo, pipeOf, writtenOf] using ih
        | _ => simpa [answersTo, pipeOf, writtenOf] using ih
    exact hs.nodup this
  · intro n b hm
    obtain ⟨o, env, r, g1, g2, g3⟩ := (pipeInv h2).wrote n c b (mem_answersTo.1 hm)
    exact ⟨o, env, r, (mem_askedBy h5).2 g1, by rw [doneIn_eq]; exact g2, g3⟩

/-- Requests read from a stream of requests are the first of these. -/
theorem taken_prefix {os sent : List Resp} {used rest : Bytes} {pieces : List Bytes} (h : TakenAll os used) (hs : List.Forall₂ Taken sent pieces)
    (he : pieces.flatten = used ++ rest) : os <+: sent := by
  induction os generalizing sent used pieces with
  | nil => exact List.nil_prefix
  | cons o os ih =>
    cases h with
    | @cons _ _ b u h1 h2 =>
      have hp : parse pieces.flatten = .ok o (u ++ rest) := (C62_read _ _ _).2 ⟨b, by rw [he, List.append_assoc], h1⟩
      cases hs with
      | nil =>
        have := parse_length hp
        simp at this
      | @cons o' b' sent' pieces' g1 g2 =>
        have hp' : parse (b' :: pieces').flatten = .ok o' pieces'.flatten := (C62_read _ _ _).2 ⟨b', by simp, g1⟩
        rw [hp] at hp'
        simp only [ReadRes.ok.injEq] at hp'
        obtain ⟨rfl, e⟩ := hp'
        exact (List.prefix_cons_inj _).2 (ih h2 g2 e.symm)

theorem patient_append {c : Nat} {a b : List Net.Ev} (h : Patient c (a ++ b)) : Patient c a := by
  intro before x after he
  exact h before x (after ++ b) (by rw [he]; simp)

theorem patient_sent {c : Nat} {tr : List Net.Ev} (h : Patient c tr) : ∃ sent, List.Forall₂ Taken sent (piecesOf c tr) := by
  induction tr using List.reverseRecOn with
  | nil => exact ⟨[], .nil⟩
  | append_singleton tr e ih =>
    obtain ⟨sent, hs⟩ := ih (patient_append h)
    rw [piecesOf_append]
    cases e with
    | feed c' e =>
      cases e with
      | arrived b =>
        simp only [piecesOf]
        split
        · next hc =>
          subst hc
          obtain ⟨⟨o, ho⟩, -⟩ := h tr b [] rfl
          exact ⟨sent ++ [o], List.rel_append hs (.cons ho .nil)⟩
        · exact ⟨sent, by simpa using hs⟩
      | _ => exact ⟨sent, by simpa [piecesOf] using hs⟩
    | _ => exact ⟨sent, by simpa [piecesOf] using hs⟩

/-- C70: a client that waits for the reply to each request before it sends the next gets the replies in the order of its requests: the k-th reply it gets
is the reply to the k-th request it sent, and there are never more replies than requests. -/
theorem C70_conversation (h : Exec Net.Step (Net.new st) tr s) {c : Nat} (hp : Patient c tr) :
    ∃ sent, List.Forall₂ Taken sent (piecesOf c tr) ∧ (askedBy c tr).map Prod.snd <+: sent ∧
      (answersTo c tr).map Prod.fst <+: (askedBy c tr).map Prod.fst ∧ sent.length ≤ (answersTo c tr).length + 1 := by
  have asked : ∀ {tr s}, Exec Net.Step (Net.new st) tr s → ∀ {sent}, List.Forall₂ Taken sent (piecesOf c tr) → (askedBy c tr).map Prod.snd <+: sent := by
    intro tr s h sent hs
    obtain ⟨used, h1, h2⟩ := (C70_streams h c).1
    exact taken_prefix h1 hs h2
  have key : (answersTo c tr).map Prod.fst <+: (askedBy c tr).map Prod.fst ∧ (piecesOf c tr).length ≤ (answersTo c tr).length + 1 := by
    refine h.inv (P := fun tr _ => Patient c tr → (answersTo c tr).map Prod.fst <+: (askedBy c tr).map Prod.fst ∧
      (piecesOf c tr).length ≤ (answersTo c tr).length + 1) (fun _ => by simp [answersTo, askedBy, piecesOf]) ?_ hp
    intro tr s e s' hx ih hs hp
    obtain ⟨i1, i2⟩ := ih (patient_append hp)
    have hx' := Exec.snoc hx hs
    rw [answersTo_append, askedBy_append, piecesOf_append]
    cases hs with
    | feed c' e x _ _ ha hf =>
      cases e with
      | arrived b =>
        simp only [answersTo, askedBy, piecesOf, List.append_nil]
        refine ⟨i1, ?_⟩
        split
        · next hc =>
          subst hc
          have := (hp tr b [] rfl).2
          simp; omega
        · simpa using i2
      | _ => simpa [answersTo, askedBy, piecesOf] using ⟨i1, i2⟩
    | crash c' x _ _ _ _ => simpa [answersTo, askedBy, piecesOf] using ⟨i1, i2⟩
    | read c' n o x p _ _ _ =>
      simp only [answersTo, askedBy, piecesOf, List.append_nil, List.map_append]
      exact ⟨i1.trans (List.prefix_append _ _), i2⟩
    | pipe e p _ _ _ =>
      cases e with
      | wrote c' n b =>
        simp only [answersTo, askedBy, piecesOf, List.append_nil]
        split
        · next hc =>
          subst hc
          have hst := C70_streams hx' c'
          have hnd := hst.2.2.1
          obtain ⟨o, env, r, hn, -, -⟩ := hst.2.2.2 n b (by simp [answersTo_append, answersTo])
          simp only [answersTo_append, askedBy_append, answersTo, askedBy, if_true, List.append_nil, List.map_append, List.map_cons, List.map_nil] at hnd hn
          obtain ⟨sent, hs⟩ := patient_sent (patient_append hp)
          have hl := (asked hx hs).length_le
          have hl' := hs.length_eq
          obtain ⟨rest, hr⟩ := i1
          have hlen : rest.length ≤ 1 := by
            have := congrArg List.length hr
            simp at this hl
            omega
          have hmem : n ∈ (answersTo c' tr).map Prod.fst ++ rest := by
            rw [hr]
            exact List.mem_map.2 ⟨_, hn, rfl⟩
          rw [List.nodup_append] at hnd
          rcases List.mem_append.1 hmem with hm | hm
          · exact absurd rfl (hnd.2.2 n hm n (by simp))
          · have : rest = [n] := by
              match rest, hlen, hm with
              | [x], _, hm => simp at hm; rw [hm]
            subst this
            refine ⟨by rw [List.map_append, ← hr]; simp, by simp; omega⟩
        · simpa using ⟨i1, i2⟩
      | _ => simpa [answersTo, askedBy, piecesOf] using ⟨i1, i2⟩
  obtain ⟨sent, hs⟩ := patient_sent hp
  exact ⟨sent, hs, asked h hs, key.1, by rw [hs.length_eq]; exact key.2⟩

/-- C70: however many clients there are and however their bytes, requests and replies overlap, the replies are those the abstract database gives when it
is asked the executed requests one after the other, beginning with what the server stored at its start. -/
theorem C70_sequential {a0 : DB} (h0 : Abs st a0) (h : Exec Net.Step (Net.new st) tr s) (ho : ∀ x ∈ doneIn tr, x.2.1.ord.Fair) :
    ∃ qs a, List.Forall₂ (fun x objs => ∃ c o, (x.1, o) ∈ askedBy c tr ∧ ArrayOf o objs) (doneIn tr) qs ∧
      Trace a0 qs ((doneIn tr).map fun x => x.2.2) a ∧ Abs s.pipe.db a := by
  obtain ⟨-, h2, -, -, h5⟩ := net_split h
  rw [doneIn_eq] at ho ⊢
  obtain ⟨qs, a, g1, g2, g3⟩ := C46_sequential h0 h2 ho
  exact ⟨qs, a, g1.imp fun _ _ ⟨c, o, k1, k2⟩ => ⟨c, o, (mem_askedBy h5).2 k1, k2⟩, g2, g3⟩

/-- C70: and in this order every request comes after all requests whose replies were written before it was read, on whatever connection. -/
theorem C70_real_time (h : Exec Net.Step (Net.new st) tr s) {a b e : List Net.Ev} {c c' n m : Nat} {w : Bytes} {o : Resp}
    (he : tr = a ++ .pipe (.wrote c n w) :: b ++ .read c' m o :: e) {x y : List (Nat × Env × Resp)} {env : Env} {r : Resp}
    (hx : doneIn tr = x ++ (m, env, r) :: y) : ∃ env' r', (n, env', r') ∈ x := by
  obtain ⟨-, h2, -⟩ := net_split h
  rw [doneIn_eq] at hx
  refine C46_serial h2 (a := pipeOf a) (b := pipeOf b) (e := pipeOf e) (c := c) (c' := c') (w := w) (o := o) ?_ hx
  rw [he]
  simp [pipeOf_append, pipeOf]

/-- C70: the reader of one connection takes down the whole server: when what a client has sent makes it reach a length of -2, nothing happens any more,
on no connection. -/
theorem C70_crash {c : Nat} {b : Bytes} (hd : s.dead = false) (hu : s.pipe.crashed = false) (hc : s.pipe.conns c ≠ none) (hr : (s.feeds c).pc = .reading)
    (he : (s.feeds c).ended = false) (hb : ReachesMinusTwo ((s.feeds c).pending ++ b)) :
    ∃ s', Exec Net.Step s [.feed c (.arrived b), .feed c .crash] s' ∧ ∀ l s'', ¬ Net.Step s' l s'' := by
  refine ⟨_, .cons (.feed c (.arrived b) _ hd hu hc rfl (.arrive b he)) (.one (.crash c _ hd hu hc (.crash ?_ ?_))), ?_⟩
  · simpa [upd] using hr
  · simpa [upd] using (C05_panic_iff _).2 hb
  · intro l s'' hs
    cases hs <;> simp_all

/-- C70: a crash is the last thing that happens, on any connection, whether a reader or the engine crashed. -/
theorem C70_last {before after : List Net.Ev} {e : Net.Ev} (he : (∃ c, e = .feed c .crash) ∨ ∃ n env, e = .pipe (.crash n env))
    (h : Exec Net.Step (Net.new st) (before ++ e :: after) s) : after = [] := by
  refine h.last (fun s => s.dead = true ∨ s.pipe.crashed = true) (fun s s' hs => ?_) fun s l s' hd hs => ?_
  · rcases he with ⟨c, rfl⟩ | ⟨n, env, rfl⟩
    · cases hs with
      | feed _ _ x _ _ _ ha _ => simp [Net.aside] at ha
      | crash => exact .inl rfl
    · cases hs with
      | pipe _ p _ _ hp => cases hp; exact .inr rfl
  · have hp : ∀ e p, Pipe.Step s.pipe e p → s.pipe.crashed = false := fun e p hp => by cases hp <;> assumption
    cases hs with
    | feed c e x h1 h2 => simp [h1, h2] at hd
    | crash c x h1 h2 => simp [h1, h2] at hd
    | pipe e p h1 _ h2 => simp [h1, hp _ _ h2] at hd
    | read c n o x p h1 _ h2 => simp [h1, hp _ _ h2] at hd

/-- C70: the engine takes down the whole server only by executing a `Fatal` request: one of some client, fatal for what the abstract database stores
after the requests executed before. Nothing is executed or written afterwards, on any connection. -/
theorem C70_killed {a0 : DB} (h0 : Abs st a0) {before after : List Net.Ev} {n : Nat} {env : Env} (h : Exec Net.Step (Net.new st) (before ++ .pipe (.crash n env) :: after) s)
    (ho : ∀ x ∈ doneIn before, x.2.1.ord.Fair) (he : env.ord.Fair) :
    after = [] ∧ ∃ c o objs qs a, (n, o) ∈ askedBy c before ∧ ArrayOf o objs ∧
      List.Forall₂ (fun x objs => ∃ c o, (x.1, o) ∈ askedBy c before ∧ ArrayOf o objs) (doneIn before) qs ∧
      Trace a0 qs ((doneIn before).map fun x => x.2.2) a ∧ Fatal a objs := by
  obtain rfl := C70_last (.inr ⟨n, env, rfl⟩) h
  obtain ⟨s1, h1, hs⟩ := h.split_snoc
  obtain ⟨qs, a, h2, h3, h4⟩ := C70_sequential h0 h1 ho
  obtain ⟨-, g2, -, -, g5⟩ := net_split h1
  cases hs with
  | pipe _ p _ _ hp =>
    cases hp with
    | crash _ m id objs _ _ k1 k2 k3 =>
      obtain ⟨c, id', o, q1, q2, rfl⟩ := (pipeInv g2).req n m (by simp [k1])
      obtain ⟨rfl, q3⟩ := parseRequest_some k2
      exact ⟨rfl, c, o, objs, qs, a, (mem_askedBy g5).2 q1, asArray_arrayOf q3, h2, h3, (C27_crash_iff h4 he).1 k3⟩

/-- C70: and a `Fatal` request that has reached the engine always does: the server never answers it. -/
theorem C70_fatal {n : Nat} {m : GoMap Pipe.Val} {id : Bytes} {objs : List Resp} {a : DB} (hd : s.dead = false) (hu : s.pipe.crashed = false)
    (ha : Abs s.pipe.db a) (hm : s.pipe.engine = some (n, m)) (hp : Pipe.parseRequest m = some (id, objs)) (hf : Fatal a objs) {env : Env}
    (he : env.ord.Fair) : (∃ s', Net.Step s (.pipe (.crash n env)) s') ∧ ∀ r s', ¬ Net.Step s (.pipe (.executed n env r)) s' := by
  have hh := (C27_crash_iff ha he).2 hf
  refine ⟨⟨_, .pipe _ _ hd rfl (.crash n m id objs env hu hm hp hh)⟩, ?_⟩
  intro r s' hs
  cases hs with
  | pipe _ p _ _ hx =>
    cases hx with
    | execute _ m' id' objs' _ db _ _ k1 k2 k3 =>
      rw [hm] at k1
      cases k1
      rw [hp] at k2
      cases k2
      rw [hh] at k3
      cases k3

/-- C70: and nothing else that clients send does: a server that is dead has got these bytes from one of its clients. -/
theorem C70_dead (h : Exec Net.Step (Net.new st) tr s) : s.dead = true ↔ ∃ c, s.pipe.conns c ≠ none ∧ (s.feeds c).pc = .crashed ∧
    ReachesMinusTwo (s.feeds c).pending := by
  have key := h.inv (P := fun _ s => (s.dead = true ↔ ∃ c, (s.feeds c).pc = .crashed) ∧
    ∀ c, (s.feeds c).pc = .crashed → s.pipe.conns c ≠ none ∧ parse (s.feeds c).pending = .panic) ?_ ?_
  · rw [key.1]
    exact ⟨fun ⟨c, hc⟩ => ⟨c, (key.2 c hc).1, hc, (C05_panic_iff _).1 (key.2 c hc).2⟩, fun ⟨c, _, hc, _⟩ => ⟨c, hc⟩⟩
  · simp [Net.new, Feed.new]
  · rintro tr s l s' - ⟨h1, h2⟩ hs
    have hno : s.dead = false → ∀ c, (s.feeds c).pc ≠ .crashed := fun hd c hc => by
      rw [h1.2 ⟨c, hc⟩] at hd
      cases hd
    cases hs with
    | feed c e x hd _ hc ha hf =>
      have hx : x.pc ≠ .crashed := by
        have := hno hd c
        cases hf <;> simp_all [Net.aside]
      have : ∀ c', (upd s.feeds c x c').pc ≠ .crashed := fun c' => by
        simp only [upd]
        split
        · exact hx
        · exact hno hd c'
      exact ⟨by simp [hd, this], fun c' hc' => absurd hc' (this c')⟩
    | crash c x hd _ hc hf =>
      cases hf with
      | crash hr hb =>
        refine ⟨by simpa using ⟨c, by simp [upd]⟩, fun c' hc' => ?_⟩
        by_cases e : c' = c
        · subst e
          exact ⟨hc, by simpa [upd] using hb⟩
        · simp only [upd, e, if_false] at hc'
          exact absurd hc' (hno hd c')
    | pipe e p hd hi hp => exact ⟨by simpa [hd] using hno hd, fun c hc => absurd hc (hno hd c)⟩
    | read c n o x p hd hf hp =>
      have hx : x.pc ≠ .crashed := by
        have := hno hd c
        cases hf
        simpa using this
      have : ∀ c', (upd s.feeds c x c').pc ≠ .crashed := fun c' => by
        simp only [upd]
        split
        · exact hx
        · exact hno hd c'
      exact ⟨by simp [hd, this], fun c' hc' => absurd hc' (this c')⟩

/-! ### examples -/

theorem patient_snoc {c : Nat} {tr : List Net.Ev} {e : Net.Ev} (h : Patient c tr)
    (he : ∀ b, e = .feed c (.arrived b) → (∃ o, Taken o b) ∧ (piecesOf c tr).length = (answersTo c tr).length) : Patient c (tr ++ [e]) := by
  intro before b after e1
  rcases List.eq_nil_or_concat after with rfl | ⟨as, a, rfl⟩
  · obtain ⟨e2, e3⟩ := List.append_inj' e1 rfl
    simp only [List.cons.injEq, and_true] at e3
    subst e2
    exact he b e3
  · rw [List.concat_eq_append, ← List.cons_append, ← List.append_assoc] at e1
    obtain ⟨e2, -⟩ := List.append_inj' e1 rfl
    exact h before b as e2

/-- The bytes of `GET k`. -/
abbrev getBytes : Bytes := b!"*2\r\n$3\r\nget\r\n$1\r\nk\r\n"

/-- One client asks, waits for the reply and asks again; another one is slow. -/
abbrev netTrace : List Net.Ev :=
  [.pipe (.connected 7), .pipe (.connected 8), .feed 7 (.arrived getBytes), .feed 8 (.arrived b!"*2"), .read 7 0 (.array (req [b!"get", b!"k"])),
    .pipe (.taken 0), .pipe (.executed 0 env0 .nullBulk), .pipe (.queued 0), .pipe (.answering 0), .pipe (.wrote 7 0 (Resp.encode .nullBulk)),
    .feed 7 (.arrived getBytes), .read 7 1 (.array (req [b!"get", b!"k"])), .pipe (.taken 1), .pipe (.executed 1 env0 .nullBulk)]

theorem getBytes_parse : parse getBytes = .ok (.array (req [b!"get", b!"k"])) [] := by rfl

theorem net_sample : ∃ s, Exec Net.Step (Net.new State.empty) netTrace s :=
  ⟨_,
    .cons (.pipe _ _ rfl rfl (.connect 7 b!"a" rfl rfl (fun _ => by simp [Net.new, Pipe.new])))
    (.cons (.pipe _ _ rfl rfl (.connect 8 b!"b" rfl rfl (fun c => by simp only [Net.new, Pipe.new, upd]; split <;> simp)))
    (.cons (.feed 7 _ _ rfl rfl (by simp [upd]) rfl (.arrive _ rfl))
    (.cons (.feed 8 _ _ rfl rfl (by simp [upd]) rfl (.arrive _ rfl))
    (.cons (.read 7 0 _ _ _ rfl (.read _ [] rfl getBytes_parse) (.read 7 b!"a" _ rfl rfl))
    (.cons (.pipe _ _ rfl rfl (.take 0 _ [] [] rfl rfl rfl))
    (.cons (.pipe _ _ rfl rfl (.execute 0 _ b!"a" (req [b!"get", b!"k"]) env0 _ .nullBulk rfl rfl rfl rfl))
    (.cons (.pipe _ _ rfl rfl (.queue 0 _ [] [] rfl rfl (Nat.zero_lt_succ 99)))
    (.cons (.pipe _ _ rfl rfl (.answer 0 _ [] b!"a" .nullBulk 7 rfl rfl rfl rfl rfl))
    (.cons (.pipe _ _ rfl rfl (.write 0 7 _ rfl rfl))
    (.cons (.feed 7 _ _ rfl rfl (by simp [upd]) rfl (.arrive _ rfl))
    (.cons (.read 7 1 _ _ _ rfl (.read _ [] rfl getBytes_parse) (.read 7 b!"a" _ rfl rfl))
    (.cons (.pipe _ _ rfl rfl (.take 1 _ [] [] rfl rfl rfl))
    (.one (.pipe _ _ rfl rfl (.execute 1 _ b!"a" (req [b!"get", b!"k"]) env0 _ .nullBulk rfl rfl rfl rfl)))))))))))))))⟩

theorem net_patient : Patient 7 netTrace := by
  have ht : ∃ o, Taken o getBytes := by
    obtain ⟨b, e, h⟩ := (C62_read getBytes (.array (req [b!"get", b!"k"])) []).1 (by rfl)
    rw [List.append_nil] at e
    exact ⟨_, e ▸ h⟩
  refine patient_snoc (patient_snoc (patient_snoc (patient_snoc (patient_snoc (patient_snoc (patient_snoc (patient_snoc (patient_snoc (patient_snoc
      (patient_snoc (patient_snoc (patient_snoc (patient_snoc (tr := []) (by intro b x a h; simp at h) ?_) ?_) ?_) ?_) ?_) ?_) ?_) ?_) ?_) ?_) ?_) ?_) ?_) ?_
  all_goals
    intro b hb
    first
      | (cases hb; exact ⟨ht, rfl⟩)
      | (simp at hb)

example : ∃ s, Exec Net.Step (Net.new State.empty) netTrace s ∧ s.out 7 = b!"$-1\r\n" ∧ ∀ x ∈ doneIn netTrace, x.2.1.ord.Fair := by
  obtain ⟨s, h⟩ := net_sample
  refine ⟨s, h, (C70_streams h 7).2.1, ?_⟩
  intro x hx
  simp only [doneIn, List.mem_cons, List.not_mem_nil, or_false] at hx
  rcases hx with rfl | rfl <;> exact env0_fair

/-- The hypotheses of `C70_real_time` can be met. -/
example : ∃ s a b e w o x y env r, Exec Net.Step (Net.new State.empty) netTrace s ∧ netTrace = a ++ .pipe (.wrote 7 0 w) :: b ++ .read 7 1 o :: e ∧
    doneIn netTrace = x ++ (1, env, r) :: y := by
  obtain ⟨s, h⟩ := net_sample
  exact ⟨s, netTrace.take 9, [.feed 7 (.arrived getBytes)], [.pipe (.taken 1), .pipe (.executed 1 env0 .nullBulk)], _, _, [(0, env0, .nullBulk)], [], _, _,
    h, rfl, rfl⟩

/-- The hypotheses of `C70_crash` can be met in the middle of a request of one client while another one is connected. -/
example : ∃ tr s, Exec Net.Step (Net.new State.empty) tr s ∧ s.dead = false ∧ s.pipe.conns 7 ≠ none ∧ s.pipe.conns 8 ≠ none ∧ (s.feeds 7).pc = .reading ∧
    (s.feeds 7).ended = false ∧ ReachesMinusTwo ((s.feeds 7).pending ++ b!"2\r\n") := by
  refine ⟨_, _, .cons (.pipe _ _ rfl rfl (.connect 7 b!"a" rfl rfl (fun _ => by simp [Net.new, Pipe.new])))
    (.cons (.pipe _ _ rfl rfl (.connect 8 b!"b" rfl rfl (fun c => by simp only [Net.new, Pipe.new, upd]; split <;> simp)))
    (.one (.feed 7 (.arrived b!"*1\r\n$-") _ rfl rfl (by simp [upd]) rfl (.arrive _ rfl)))), rfl, by simp [upd], by simp [upd], rfl, rfl, ?_⟩
  exact (C05_panic_iff _).1 (by rfl)

/-- The bytes of `SADD "" x`, which kills the server. -/
abbrev saddBytes : Bytes := b!"*3\r\n$4\r\nsadd\r\n$0\r\n\r\n$1\r\nx\r\n"

theorem saddBytes_parse : parse saddBytes = .ok (.array (req [b!"sadd", b!"", b!"x"])) [] := by rfl

theorem sadd_fatal : handle env0 State.empty (req [b!"sadd", b!"", b!"x"]) = .panic := rfl

/-- Client 7 is answered, then client 8 kills the server. -/
abbrev netFatal : List Net.Ev :=
  [.pipe (.connected 7), .pipe (.connected 8), .feed 7 (.arrived getBytes), .feed 8 (.arrived saddBytes), .read 7 0 (.array (req [b!"get", b!"k"])),
    .pipe (.taken 0), .pipe (.executed 0 env0 .nullBulk), .read 8 1 (.array (req [b!"sadd", b!"", b!"x"])), .pipe (.taken 1)]

/-- The hypotheses of `C70_killed`, `C70_last` and `C70_fatal` can be met. -/
example : ∃ s s', Exec Net.Step (Net.new State.empty) netFatal s ∧ Net.Step s (.pipe (.crash 1 env0)) s' ∧ Exec Net.Step (Net.new State.empty) (netFatal ++ .pipe (.crash 1 env0) :: []) s' ∧
    ∀ x ∈ doneIn netFatal, x.2.1.ord.Fair := by
  have h : ∃ s, Exec Net.Step (Net.new State.empty) netFatal s ∧ ∃ s', Net.Step s (.pipe (.crash 1 env0)) s' :=
    ⟨_,
    .cons (.pipe _ _ rfl rfl (.connect 7 b!"a" rfl rfl (fun _ => by simp [Net.new, Pipe.new])))
    (.cons (.pipe _ _ rfl rfl (.connect 8 b!"b" rfl rfl (fun c => by simp only [Net.new, Pipe.new, upd]; split <;> simp)))
    (.cons (.feed 7 _ _ rfl rfl (by simp [upd]) rfl (.arrive _ rfl))
    (.cons (.feed 8 _ _ rfl rfl (by simp [upd]) rfl (.arrive _ rfl))
    (.cons (.read 7 0 _ _ _ rfl (.read _ [] rfl getBytes_parse) (.read 7 b!"a" _ rfl rfl))
    (.cons (.pipe _ _ rfl rfl (.take 0 _ [] [] rfl rfl rfl))
    (.cons (.pipe _ _ rfl rfl (.execute 0 _ b!"a" (req [b!"get", b!"k"]) env0 State.empty .nullBulk rfl rfl rfl rfl))
    (.cons (.read 8 1 _ _ _ rfl (.read _ [] rfl saddBytes_parse) (.read 8 b!"b" _ rfl rfl))
    (.one (.pipe _ _ rfl rfl (.take 1 _ [] [] rfl rfl rfl)))))))))),
    _, .pipe _ _ rfl rfl (.crash 1 _ b!"b" (req [b!"sadd", b!"", b!"x"]) env0 rfl rfl rfl sadd_fatal)⟩
  obtain ⟨s, h, s', hs⟩ := h
  refine ⟨s, s', h, hs, h.snoc hs, fun x hx => ?_⟩
  simp only [doneIn, List.mem_cons, List.not_mem_nil, or_false] at hx
  exact hx ▸ env0_fair

end Verif.Props
