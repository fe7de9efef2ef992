import Verif.Lemmas.Frame
import Verif.Lemmas.Sample

/-! # C13–C19 – list keys -/

namespace Verif.Props

open Verif Spec

variable {env env' : Env} {st st' : State} {a : DB} {objs objs' : List Resp} {k v : Bytes}

/-! ## C13 -/

/-- C13 (refinement): whatever requests a server gets from its start on, as long as it runs its replies are replies of the abstract
machine, in which a list key holds a plain sequence, and the state stores that machine's database. -/
theorem C13_trace {reqs : List (Env × List Resp)} {rs : List Resp} (ho : ∀ q ∈ reqs, q.1.ord.Fair)
    (hs : serve State.empty reqs = .ok (st, rs)) : ∃ a, Trace DB.empty (reqs.map Prod.snd) rs a ∧ Abs st a :=
  serve_trace abs_empty ho hs

/-- The list commands. -/
def IsListCommand : Command → Prop
  | .lpop .. | .rpop .. | .lindex .. | .linsert .. | .llen .. | .lpush .. | .rpush .. | .lrange .. | .ltrim .. | .lrem .. | .lset .. => True
  | _ => False

/-- C13 (determinism): for list commands the abstract machine has no choice, so `C13_trace` fixes the reply and the new contents. -/
theorem C13_determined {c : Command} {a₁ a₂ : DB} {r₁ r₂ : Resp} (hc : IsListCommand c) (h₁ : Step a c (done a₁ r₁))
    (h₂ : Step a c (done a₂ r₂)) : a₁ = a₂ ∧ r₁ = r₂ := by
  have inj : ∀ {x y : DB} {r s : Resp}, done x r = done y s → x = y ∧ r = s := by simp [done]
  have nf : ∀ {x y : DB} {r : Resp} {e : CmdErr}, done x r ≠ fails y e := by simp [done, fails]
  cases c <;> simp only [IsListCommand] at hc <;> simp only [Step] at h₁ h₂
  case lpop k =>
    split at h₁
    · rename_i e; simp only [e] at h₂; exact ⟨(inj h₁).1.trans (inj h₂).1.symm, (inj h₁).2.trans (inj h₂).2.symm⟩
    · rename_i hn
      split at h₂
      · rename_i x xs e; exact absurd e (hn x xs)
      · exact ⟨(inj h₁).1.trans (inj h₂).1.symm, (inj h₁).2.trans (inj h₂).2.symm⟩
  case rpop k =>
    split at h₁
    · rename_i e; simp only [e] at h₂; exact ⟨(inj h₁).1.trans (inj h₂).1.symm, (inj h₁).2.trans (inj h₂).2.symm⟩
    · rename_i xs e
      simp only [e] at h₂
      rcases h₁ with ⟨e1, h₁⟩ | ⟨ys, y, e1, h₁⟩ <;> rcases h₂ with ⟨e2, h₂⟩ | ⟨ys', y', e2, h₂⟩
      · exact ⟨(inj h₁).1.trans (inj h₂).1.symm, (inj h₁).2.trans (inj h₂).2.symm⟩
      · rw [e1] at e2; simp at e2
      · rw [e1] at e2; simp at e2
      · have := e1.symm.trans e2
        have h3 := List.append_inj_left' this rfl
        have h4 := List.append_inj_right' this rfl
        cases h4; cases h3
        exact ⟨(inj h₁).1.trans (inj h₂).1.symm, (inj h₁).2.trans (inj h₂).2.symm⟩
  case lindex k i =>
    rcases h₁ with ⟨p, x, d1, g1, h₁⟩ | ⟨n1, h₁⟩ <;> rcases h₂ with ⟨p', x', d2, g2, h₂⟩ | ⟨n2, h₂⟩
    · have : p = p' := by unfold Denotes at d1 d2; omega
      subst this
      rw [g1] at g2; cases g2
      exact ⟨(inj h₁).1.trans (inj h₂).1.symm, (inj h₁).2.trans (inj h₂).2.symm⟩
    · exact absurd ⟨p, d1⟩ n2
    · exact absurd ⟨p', d2⟩ n1
    · exact ⟨(inj h₁).1.trans (inj h₂).1.symm, (inj h₁).2.trans (inj h₂).2.symm⟩
  case linsert k af p v =>
    split at h₁
    · rename_i e; simp only [e] at h₂; exact ⟨(inj h₁).1.trans (inj h₂).1.symm, (inj h₁).2.trans (inj h₂).2.symm⟩
    · rename_i xs e
      simp only [e] at h₂
      split at h₁
      · rename_i hp
        rw [if_pos hp] at h₂
        split at h₁
        · rename_i ha; rw [if_pos ha] at h₂; exact ⟨(inj h₁).1.trans (inj h₂).1.symm, (inj h₁).2.trans (inj h₂).2.symm⟩
        · simp [done] at h₁
      · rename_i hp
        rw [if_neg hp] at h₂
        rcases h₁ with ⟨m1, h₁⟩ | ⟨pre, post, f1, h₁⟩ <;> rcases h₂ with ⟨m2, h₂⟩ | ⟨pre', post', f2, h₂⟩
        · exact ⟨(inj h₁).1.trans (inj h₂).1.symm, (inj h₁).2.trans (inj h₂).2.symm⟩
        · rw [f2.1] at m1; simp at m1
        · rw [f1.1] at m2; simp at m2
        · have e1 := f1.1.symm.trans f2.1
          have : pre = pre' ∧ post = post' := by
            have key : ∀ {pre pre' : List Bytes}, p ∉ pre → p ∉ pre' → pre ++ p :: post = pre' ++ p :: post' → pre = pre' ∧ post = post' := by
              intro pre
              induction pre with
              | nil =>
                intro pre' _ h2 h
                cases pre' with
                | nil => simpa using h
                | cons y ys => simp at h; exact absurd h.1 (by rintro rfl; simp at h2)
              | cons x pre ih =>
                intro pre' h1 h2 h
                cases pre' with
                | nil => simp at h; exact absurd h.1 (by rintro rfl; simp at h1)
                | cons y ys =>
                  simp at h h1 h2
                  obtain ⟨rfl, h⟩ := h
                  have := ih h1.2 h2.2 h
                  simp [this]
            exact key f1.2 f2.2 e1
          obtain ⟨rfl, rfl⟩ := this
          exact ⟨(inj h₁).1.trans (inj h₂).1.symm, (inj h₁).2.trans (inj h₂).2.symm⟩
  case llen k => exact ⟨(inj h₁).1.trans (inj h₂).1.symm, (inj h₁).2.trans (inj h₂).2.symm⟩
  case lpush k vs =>
    split at h₁
    · obtain ⟨m, h⟩ := h₁; exact absurd h nf
    · rename_i hk; rw [if_neg hk] at h₂; exact ⟨(inj h₁).1.trans (inj h₂).1.symm, (inj h₁).2.trans (inj h₂).2.symm⟩
  case rpush k vs =>
    split at h₁
    · obtain ⟨m, h⟩ := h₁; exact absurd h nf
    · rename_i hk; rw [if_neg hk] at h₂; exact ⟨(inj h₁).1.trans (inj h₂).1.symm, (inj h₁).2.trans (inj h₂).2.symm⟩
  case lrange k l r =>
    rcases h₁ with ⟨i, j, w1, h₁⟩ | ⟨n1, h₁⟩ <;> rcases h₂ with ⟨i', j', w2, h₂⟩ | ⟨n2, h₂⟩
    · have : i = i' ∧ j = j' := by unfold ListWindow Window Denotes at w1 w2; split at w1 <;> simp_all <;> omega
      obtain ⟨rfl, rfl⟩ := this
      exact ⟨(inj h₁).1.trans (inj h₂).1.symm, (inj h₁).2.trans (inj h₂).2.symm⟩
    · exact absurd ⟨i, j, w1⟩ n2
    · exact absurd ⟨i', j', w2⟩ n1
    · exact ⟨(inj h₁).1.trans (inj h₂).1.symm, (inj h₁).2.trans (inj h₂).2.symm⟩
  case ltrim k l r =>
    rcases h₁ with ⟨i, j, w1, h₁⟩ | ⟨n1, h₁⟩ <;> rcases h₂ with ⟨i', j', w2, h₂⟩ | ⟨n2, h₂⟩
    · have : i = i' ∧ j = j' := by unfold ListWindow Window Denotes at w1 w2; split at w1 <;> simp_all <;> omega
      obtain ⟨rfl, rfl⟩ := this
      exact ⟨(inj h₁).1.trans (inj h₂).1.symm, (inj h₁).2.trans (inj h₂).2.symm⟩
    · exact absurd ⟨i, j, w1⟩ n2
    · exact absurd ⟨i', j', w2⟩ n1
    · exact ⟨(inj h₁).1.trans (inj h₂).1.symm, (inj h₁).2.trans (inj h₂).2.symm⟩
  case lrem k n v =>
    split at h₁
    · rename_i e; simp only [e] at h₂; exact ⟨(inj h₁).1.trans (inj h₂).1.symm, (inj h₁).2.trans (inj h₂).2.symm⟩
    · rename_i xs e
      simp only [e] at h₂
      split at h₁
      · simp [done] at h₁
      · rename_i hc'; rw [if_neg hc'] at h₂; exact ⟨(inj h₁).1.trans (inj h₂).1.symm, (inj h₁).2.trans (inj h₂).2.symm⟩
  case lset k i v =>
    split at h₁
    · exact absurd h₁ nf
    · rename_i xs e
      simp only [e] at h₂
      rcases h₁ with ⟨p, d1, h₁⟩ | ⟨n1, h₁⟩ <;> rcases h₂ with ⟨p', d2, h₂⟩ | ⟨n2, h₂⟩
      · have : p = p' := by unfold Denotes at d1 d2; omega
        subst this
        exact ⟨(inj h₁).1.trans (inj h₂).1.symm, (inj h₁).2.trans (inj h₂).2.symm⟩
      · exact absurd ⟨p, d1⟩ n2
      · exact absurd ⟨p', d2⟩ n1
      · exact absurd h₁ nf

/-- Following `step` from `p` visits the addresses `as` and then stops. -/
inductive Visits (step : Nat → Option Nat) : Nat → List Nat → Prop where
  | last {p : Nat} : step p = none → Visits step p [p]
  | next {p q : Nat} {as : List Nat} : step p = some q → Visits step q as → Visits step p (p :: as)

theorem visits_next {m : Heap} {p : List Nat} {x : Nat} (h : (p ++ [x]).IsChain (Link m)) (hx : (m x).next = none) :
    Visits (fun a => (m a).next) ((p ++ [x]).headD 0) (p ++ [x]) := by
  induction p with
  | nil => exact .last hx
  | cons y p ih =>
    cases p with
    | nil =>
      simp only [List.cons_append, List.nil_append, List.isChain_pair] at h
      exact .next h.1 (.last hx)
    | cons z p =>
      simp only [List.cons_append, List.isChain_cons_cons] at h ih
      exact .next h.1.1 (ih h.2)

theorem visits_prev {m : Heap} {p : List Nat} {x : Nat} (h : (x :: p).IsChain (Link m)) (hx : (m x).prev = none) :
    Visits (fun a => (m a).prev) ((x :: p).getLastD 0) (x :: p).reverse := by
  induction p using List.reverseRecOn with
  | nil => exact .last hx
  | append_singleton p y ih =>
    rcases List.eq_nil_or_concat p with rfl | ⟨q, z, rfl⟩
    · simp only [List.nil_append, List.isChain_pair] at h
      exact .next h.2 (.last hx)
    · rw [List.concat_eq_append] at *
      have h1 : (x :: (q ++ [z])).IsChain (Link m) := by
        have : x :: (q ++ [z] ++ [y]) = (x :: (q ++ [z])) ++ [y] := by simp
        rw [this, List.isChain_append] at h
        exact h.1
      have h2 : Link m z y := by
        have : x :: (q ++ [z] ++ [y]) = (x :: q) ++ [z, y] := by simp
        rw [this, List.isChain_append] at h
        exact List.isChain_pair.1 h.2.1
      have := ih h1
      have e1 : (x :: (q ++ [z] ++ [y])).getLastD 0 = y := by
        rw [show x :: (q ++ [z] ++ [y]) = (x :: (q ++ [z])) ++ [y] by simp]; rw [List.getLastD_eq_getLast?, List.getLast?_concat]; rfl
      have e2 : (x :: (q ++ [z])).getLastD 0 = z := by
        rw [show x :: (q ++ [z]) = (x :: q) ++ [z] by simp]; rw [List.getLastD_eq_getLast?, List.getLast?_concat]; rfl
      rw [e1]
      rw [e2] at this
      have e3 : (x :: (q ++ [z] ++ [y])).reverse = y :: (x :: (q ++ [z])).reverse := by simp
      rw [e3]
      exact .next h2.2 this

/-- C13 (structure): in every reachable state every list key holds a properly doubly linked list. There is a sequence of distinct,
allocated node addresses which the traversal along `next` from the head sentinel visits in order, and the traversal along `prev` from the
tail sentinel in reverse order; both stop. Their data are the abstract sequence, and the stored size is its length. -/
theorem C13_structure {l : LList} (h : Abs st a) (hl : st.lists.get k = some l) :
    ∃ as xs, a.lists k = some xs ∧ (l.head :: (as ++ [l.tail])).Nodup ∧
      Visits (fun p => (l.heap p).next) l.head (l.head :: (as ++ [l.tail])) ∧
      Visits (fun p => (l.heap p).prev) l.tail (l.tail :: (as.reverse ++ [l.head])) ∧
      (∀ p ∈ l.head :: (as ++ [l.tail]), p < l.fresh) ∧
      as.map (fun p => (l.heap p).data.data) = xs ∧ l.size = xs.length := by
  have := h.lists k
  rw [hl] at this
  cases e : a.lists k with
  | none => rw [e] at this; exact this.elim
  | some xs =>
    rw [e] at this
    obtain ⟨as, hr⟩ := this
    refine ⟨as, xs, rfl, hr.path.1, ?_, ?_, hr.alloc, ?_, hr.size⟩
    · have := visits_next (p := l.head :: as) hr.path.2 hr.tailNext
      simpa using this
    · have := visits_prev (p := as ++ [l.tail]) hr.path.2 hr.headPrev
      have e1 : (l.head :: (as ++ [l.tail])).getLastD 0 = l.tail := by
        rw [show l.head :: (as ++ [l.tail]) = (l.head :: as) ++ [l.tail] by simp]; rw [List.getLastD_eq_getLast?, List.getLast?_concat]; rfl
      rw [e1] at this
      simpa using this
    · have := congrArg (List.map Str.data) hr.data
      simpa [Function.comp_def] using this

/-- C13 (LLEN): LLEN replies the length of the sequence, 0 for a missing key, and changes nothing. -/
theorem C13_llen (h : Abs st a) (ho : env.ord.Fair) (hr : Request objs b!"llen" [k]) : Answers env st objs a (.int (a.listAt k).length) := by
  obtain ⟨out, hs, hob⟩ := handle_refines h ho (c := .llen k) hr
  simp only [Step] at hs; subst hs; exact hob

/-- A reachable state holds the list a, b, a, c. -/
example : ∃ st l, Reachable st ∧ Abs st sampleDB ∧ st.lists.get b!"l" = some l ∧ sampleDB.lists b!"l" = some [b!"a", b!"b", b!"a", b!"c"] := by
  obtain ⟨st, hr, ha⟩ := sample_reachable
  have := ha.lists b!"l"
  cases e : st.lists.get b!"l" with
  | none => rw [e] at this; exact this.elim
  | some l => exact ⟨st, l, hr, ha, e, rfl⟩

/-! ## C14 -/

/-- The two ends of a list. -/
inductive End where
  | left
  | right

/-- The opposite end. -/
def End.other : End → End
  | .left => .right
  | .right => .left

/-- LPUSH or RPUSH. -/
def End.push : End → Bytes
  | .left => b!"lpush"
  | .right => b!"rpush"

/-- LPOP or RPOP. -/
def End.pop : End → Bytes
  | .left => b!"lpop"
  | .right => b!"rpop"

/-- The elements, starting from the other end: what has been pushed at this end comes last. -/
def End.line : End → List Bytes → List Bytes
  | .left, xs => xs.reverse
  | .right, xs => xs

theorem push_answers {e : End} {vs : List Bytes} (h : Abs st a) (ho : env.ord.Fair) (hk : k ≠ []) (hv : vs ≠ [])
    (hr : Request objs e.push (k :: vs)) :
    ∃ xs, e.line xs = e.line (a.listAt k) ++ vs ∧ Answers env st objs (a.setList k xs) (.int xs.length) := by
  cases e with
  | left =>
    obtain ⟨out, hs, hob⟩ := handle_refines h ho (c := .lpush k vs) ⟨hv, hr⟩
    simp only [Step] at hs
    rw [if_neg hk] at hs; subst hs
    exact ⟨vs.reverse ++ a.listAt k, by simp [End.line], by simpa [Answers, Observes, done] using hob⟩
  | right =>
    obtain ⟨out, hs, hob⟩ := handle_refines h ho (c := .rpush k vs) ⟨hv, hr⟩
    simp only [Step] at hs
    rw [if_neg hk] at hs; subst hs
    refine ⟨a.listAt k ++ vs, rfl, ?_⟩
    have e : (((a.listAt k ++ vs).length : Nat) : Int) = (vs.length : Int) + ((a.listAt k).length : Nat) := by simp; omega
    rw [e]; exact hob

theorem pop_answers (e : End) (h : Abs st a) (ho : env.ord.Fair) (hr : Request objs e.pop [k]) :
    (a.listAt k = [] ∧ Answers env st objs a .nullBulk) ∨
    ∃ x xs, e.line (a.listAt k) = e.line xs ++ [x] ∧ Answers env st objs (a.setList k xs) (.bulk x) := by
  cases e with
  | left =>
    obtain ⟨out, hs, hob⟩ := handle_refines h ho (c := .lpop k) hr
    simp only [Step] at hs
    split at hs
    · rename_i x xs e
      subst hs
      exact .inr ⟨x, xs, by simp [End.line, DB.listAt, e], hob⟩
    · rename_i hn
      subst hs
      refine .inl ⟨?_, hob⟩
      unfold DB.listAt
      cases e : a.lists k with
      | none => rfl
      | some xs => cases xs with
        | nil => rfl
        | cons x xs => exact absurd e (hn x xs)
  | right =>
    obtain ⟨out, hs, hob⟩ := handle_refines h ho (c := .rpop k) hr
    simp only [Step] at hs
    split at hs
    · rename_i e
      subst hs
      exact .inl ⟨by simp [DB.listAt, e], hob⟩
    · rename_i xs e
      rcases hs with ⟨rfl, rfl⟩ | ⟨ys, y, rfl, rfl⟩
      · exact .inl ⟨by simp [DB.listAt, e], hob⟩
      · exact .inr ⟨y, ys, by simp [End.line, DB.listAt, e], hob⟩

/-- C14 (empty): popping a missing or empty list replies null and changes nothing. -/
theorem C14_pop_empty (e : End) (h : Abs st a) (ho : env.ord.Fair) (hr : Request objs e.pop [k]) (hl : a.lists k = none ∨ a.lists k = some []) :
    Answers env st objs a .nullBulk := by
  rcases pop_answers e h ho hr with ⟨-, h⟩ | ⟨x, xs, h1, -⟩
  · exact h
  · have : a.listAt k = [] := by unfold DB.listAt; rcases hl with e | e <;> rw [e] <;> rfl
    rw [this] at h1
    cases e <;> simp [End.line] at h1

theorem line_other (e : End) (xs : List Bytes) : e.other.line xs = (e.line xs).reverse := by
  cases e <;> simp [End.other, End.line]

/-- A history in which elements are pushed at one end and popped at the other end of `k`, with its replies: `pushed` lists all elements
pushed, `popped` all elements replied by the pops, both in order. -/
inductive Queue (e : End) (k : Bytes) : List (Env × List Resp) → List Resp → List Bytes → List Bytes → Prop where
  | nil : Queue e k [] [] [] []
  | push {q qs r rs vs pushed popped} : vs ≠ [] → Request q.2 e.push (k :: vs) → Queue e k qs rs pushed popped →
      Queue e k (q :: qs) (r :: rs) (vs ++ pushed) popped
  | pop {q qs x rs pushed popped} : Request q.2 e.other.pop [k] → Queue e k qs rs pushed popped →
      Queue e k (q :: qs) (.bulk x :: rs) pushed (x :: popped)
  | popNull {q qs rs pushed popped} : Request q.2 e.other.pop [k] → Queue e k qs rs pushed popped →
      Queue e k (q :: qs) (.nullBulk :: rs) pushed popped

/-- C14 (queue): in any history of pushes at one end and pops at the other end, however interleaved, the popped elements followed by
those still stored are the elements initially stored followed by those pushed, in order: nothing is lost, duplicated or reordered. -/
theorem C14_fifo {e : End} {reqs : List (Env × List Resp)} {rs : List Resp} (h : Abs st a) (ho : ∀ q ∈ reqs, q.1.ord.Fair) (hk : k ≠ [])
    (hq : ∀ q ∈ reqs, (∃ vs, vs ≠ [] ∧ Request q.2 e.push (k :: vs)) ∨ Request q.2 e.other.pop [k])
    (hs : serve st reqs = .ok (st', rs)) :
    ∃ pushed popped a', Queue e k reqs rs pushed popped ∧ Abs st' a' ∧
      popped ++ e.line (a'.listAt k) = e.line (a.listAt k) ++ pushed := by
  induction reqs generalizing st a rs with
  | nil => simp [serve] at hs; obtain ⟨rfl, rfl⟩ := hs; exact ⟨[], [], a, .nil, h, by simp⟩
  | cons q reqs ih =>
    obtain ⟨env, objs⟩ := q
    have fin : ∀ {a1 st1 r}, handle env st objs = .ok (st1, r) → Abs st1 a1 → ∃ rs2, rs = r :: rs2 ∧
        ∃ pushed popped a', Queue e k reqs rs2 pushed popped ∧ Abs st' a' ∧ popped ++ e.line (a'.listAt k) = e.line (a1.listAt k) ++ pushed := by
      intro a1 st1 r e1 h1
      simp only [serve, e1] at hs
      cases hs2 : serve st1 reqs with
      | panic => rw [hs2] at hs; simp at hs
      | diverge => rw [hs2] at hs; simp at hs
      | ok p =>
        obtain ⟨st2, rs2⟩ := p
        rw [hs2] at hs; simp at hs
        obtain ⟨rfl, rfl⟩ := hs
        exact ⟨rs2, rfl, ih h1 (fun q hq => ho q (by simp [hq])) (fun q hq' => hq q (by simp [hq'])) hs2⟩
    rcases hq (env, objs) (by simp) with ⟨vs, hv, hr⟩ | hr
    · obtain ⟨xs, hx, st1, e1, h1⟩ := push_answers h (ho (env, objs) (by simp)) hk hv hr
      obtain ⟨rs2, rfl, pu, po, a', hQ, ha', he⟩ := fin e1 h1
      refine ⟨vs ++ pu, po, a', .push hv hr hQ, ha', ?_⟩
      rw [he]
      simp [DB.setList, DB.listAt] at hx ⊢
      rw [hx]; simp
    · rcases pop_answers e.other h (ho (env, objs) (by simp)) hr with ⟨-, st1, e1, h1⟩ | ⟨x, xs, hx, st1, e1, h1⟩
      · obtain ⟨rs2, rfl, pu, po, a', hQ, ha', he⟩ := fin e1 h1
        exact ⟨pu, po, a', .popNull hr hQ, ha', he⟩
      · obtain ⟨rs2, rfl, pu, po, a', hQ, ha', he⟩ := fin e1 h1
        refine ⟨pu, x :: po, a', .pop hr hQ, ha', ?_⟩
        rw [line_other, line_other] at hx
        have hx' := congrArg List.reverse hx
        simp only [List.reverse_reverse, List.reverse_append, List.reverse_singleton] at hx'
        rw [hx', List.cons_append, he]
        simp [DB.setList, DB.listAt]

theorem serve_pushes {e : End} {reqs : List (Env × List Resp)} {vss : List (List Bytes)} (h : Abs st a)
    (ho : ∀ q ∈ reqs, q.1.ord.Fair) (hk : k ≠ []) (hv : ∀ vs ∈ vss, vs ≠ [])
    (hq : List.Forall₂ (fun q vs => Request q.2 e.push (k :: vs)) reqs vss) :
    ∃ st' rs a', serve st reqs = .ok (st', rs) ∧ Abs st' a' ∧ e.line (a'.listAt k) = e.line (a.listAt k) ++ vss.flatten := by
  induction hq generalizing st a with
  | nil => exact ⟨st, [], a, rfl, h, by simp⟩
  | @cons q vs reqs vss h1 _ ih =>
    obtain ⟨env, objs⟩ := q
    obtain ⟨xs, hx, st1, e1, ha1⟩ := push_answers h (ho (env, objs) (by simp)) hk (hv vs (by simp)) h1
    obtain ⟨st2, rs, a', e2, ha2, hl⟩ := ih ha1 (fun q hq => ho q (by simp [hq])) (fun w hw => hv w (by simp [hw]))
    refine ⟨st2, .int xs.length :: rs, a', by simp only [serve, e1, e2], ha2, ?_⟩
    rw [hl]
    simp [DB.setList, DB.listAt] at hx ⊢
    rw [hx]; simp

theorem serve_pops {e : End} {reqs : List (Env × List Resp)} {xs ys : List Bytes} (h : Abs st a)
    (ho : ∀ q ∈ reqs, q.1.ord.Fair) (hq : ∀ q ∈ reqs, Request q.2 e.pop [k]) (hl : reqs.length = ys.length)
    (hx : e.line (a.listAt k) = xs ++ ys.reverse) :
    ∃ st' a', serve st reqs = .ok (st', ys.map .bulk) ∧ Abs st' a' ∧ e.line (a'.listAt k) = xs := by
  induction reqs generalizing st a ys with
  | nil =>
    have : ys = [] := List.length_eq_zero_iff.1 (by simpa using hl.symm)
    subst this
    exact ⟨st, a, rfl, h, by simpa using hx⟩
  | cons q reqs ih =>
    obtain ⟨env, objs⟩ := q
    cases ys with
    | nil => simp at hl
    | cons y ys =>
      rcases pop_answers e h (ho (env, objs) (by simp)) (hq (env, objs) (by simp)) with ⟨hn, -⟩ | ⟨x, zs, h1, st1, e1, a1⟩
      · rw [hn] at hx; cases e <;> simp [End.line] at hx
      · rw [h1] at hx
        simp only [List.reverse_cons, ← List.append_assoc] at hx
        have h3 := List.append_inj_left' hx rfl
        have h4 := List.append_inj_right' hx rfl
        cases h4
        obtain ⟨st2, a', e2, ha2, hl2⟩ := ih a1 (fun q hq => ho q (by simp [hq])) (fun q hq' => hq q (by simp [hq'])) (by simpa using hl)
          (by simp [DB.setList, DB.listAt]; exact h3)
        exact ⟨st2, a', by simp only [serve, e1, e2, List.map_cons], ha2, hl2⟩

/-- C14 (stack): after any pushes at one end, pops at the same end reply the pushed elements last first; after as many pops as elements
pushed the list is as before. -/
theorem C14_lifo {e : End} {pushes pops : List (Env × List Resp)} {vss : List (List Bytes)} (h : Abs st a)
    (ho : ∀ q ∈ pushes, q.1.ord.Fair) (ho' : ∀ q ∈ pops, q.1.ord.Fair) (hk : k ≠ []) (hv : ∀ vs ∈ vss, vs ≠ [])
    (hp : List.Forall₂ (fun q vs => Request q.2 e.push (k :: vs)) pushes vss) (hq : ∀ q ∈ pops, Request q.2 e.pop [k])
    (hl : pops.length = vss.flatten.length) :
    ∃ st' rs a', serve st (pushes ++ pops) = .ok (st', rs ++ vss.flatten.reverse.map .bulk) ∧ rs.length = pushes.length ∧ Abs st' a' ∧
      a'.listAt k = a.listAt k := by
  obtain ⟨st1, rs, a1, e1, h1, hl1⟩ := serve_pushes h ho hk hv hp
  obtain ⟨st2, a2, e2, h2, hl2⟩ := serve_pops (xs := e.line (a.listAt k)) (ys := vss.flatten.reverse) h1 ho' hq (by simpa using hl) (by simpa using hl1)
  refine ⟨st2, rs, a2, ?_, ?_, h2, ?_⟩
  · rw [serve_append e1, e2]
  · clear e2 hl2 hl1 h1 hq hl hp h2
    have : ∀ {reqs : List (Env × List Resp)} {st st' : State} {rs}, serve st reqs = .ok (st', rs) → rs.length = reqs.length := by
      intro reqs
      induction reqs with
      | nil => intro st st' rs h; simp [serve] at h; simp [h.2]
      | cons q reqs ih =>
        intro st st' rs h
        obtain ⟨env, objs⟩ := q
        simp only [serve] at h
        split at h
        · split at h
          · rename_i hh; simp at h; rw [← h.2]; simp [ih hh]
          · simp at h
          · simp at h
        · simp at h
        · simp at h
    exact this e1
  · cases e
    · simpa [End.line] using hl2
    · exact hl2

/-- The hypotheses can be met: RPUSH l x y, then two RPOPs; as a queue, then two LPOPs. -/
example : List.Forall₂ (fun (q : Env × List Resp) vs => Request q.2 End.right.push (b!"l" :: vs)) [(env0, req [b!"RPUSH", b!"l", b!"x", b!"y"])] [[b!"x", b!"y"]] ∧
    (∀ q ∈ [(env0, req [b!"rpop", b!"l"]), (env0, req [b!"rpop", b!"l"])], Request q.2 End.right.pop [b!"l"]) ∧
    Request (req [b!"lpop", b!"l"]) End.right.other.pop [b!"l"] := by
  refine ⟨.cons (request_req _) .nil, ?_, request_req _⟩
  intro q hq
  simp at hq; subst hq
  exact request_req _

/-! ## C15

As documented the property is false for one element value and one count: the text "dummy string", which the code also stores in its
two sentinel nodes, and -2^63, which has no 64-bit absolute value. -/

theorem removeFirst_split (n : Nat) (x : Bytes) (xs : List Bytes) :
    ∃ pre post, xs = pre ++ post ∧ removeFirst n x xs = removeAll x pre ++ post ∧ pre.count x = min n (xs.count x) := by
  induction xs generalizing n with
  | nil =>
    refine ⟨[], [], rfl, ?_, by simp⟩
    induction n with
    | zero => rfl
    | succ n ih => rw [removeFirst]; exact ih
  | cons y ys ih =>
    by_cases h : y = x
    · subst h
      cases n with
      | zero => exact ⟨[], y :: ys, rfl, rfl, by simp⟩
      | succ n =>
        obtain ⟨pre, post, e1, e2, e3⟩ := ih n
        refine ⟨y :: pre, post, by rw [e1]; rfl, ?_, ?_⟩
        · rw [removeFirst_cons_eq, e2]; simp [removeAll]
        · rw [List.count_cons_self, List.count_cons_self, e3]; omega
    · obtain ⟨pre, post, e1, e2, e3⟩ := ih n
      refine ⟨y :: pre, post, by rw [e1]; rfl, ?_, ?_⟩
      · rw [removeFirst_cons_ne _ h, e2]; simp [removeAll, h]
      · rw [List.count_cons_of_ne h, List.count_cons_of_ne h, e3]

theorem removeAll_length (x : Bytes) (xs : List Bytes) : (removeAll x xs).length + xs.count x = xs.length := by
  induction xs with
  | nil => rfl
  | cons y ys ih =>
    by_cases h : y = x
    · subst h; simp [removeAll] at ih ⊢; omega
    · rw [List.count_cons_of_ne h]; simp [removeAll, h] at ih ⊢; omega

/-- C15 (partial: the element is not "dummy string", the count is not -2^63): LREM with a positive count n removes the first n
occurrences: all occurrences in a prefix that holds n of them (or all there are), and nothing after it. With a negative count the same
from the back, with count zero everywhere. The reply is the number removed, everything else keeps its order. -/
theorem C15_lrem_partial {l : Bytes} {n : Int} {xs : List Bytes} (h : Abs st a) (ho : env.ord.Fair) (hr : Request objs b!"lrem" [k, l, v])
    (hn : IsInt l n) (hk : a.lists k = some xs) (hv : v ≠ b!"dummy string") (hm : n ≠ -2 ^ 63) :
    (n > 0 → ∃ pre post, xs = pre ++ post ∧ pre.count v = min n.toNat (xs.count v) ∧
      Answers env st objs (a.setList k (removeAll v pre ++ post)) (.int (pre.count v))) ∧
    (n < 0 → ∃ pre post, xs = pre ++ post ∧ post.count v = min (-n).toNat (xs.count v) ∧
      Answers env st objs (a.setList k (pre ++ removeAll v post)) (.int (post.count v))) ∧
    (n = 0 → Answers env st objs (a.setList k (removeAll v xs)) (.int (xs.count v))) := by
  obtain ⟨out, hs, hob⟩ := handle_refines h ho (c := .lrem k n v) ⟨l, hr, hn⟩
  simp only [Step, hk] at hs
  rw [if_neg (fun h => hv h.1)] at hs
  subst hs
  have hm' : n ≠ minInt64 := hm
  refine ⟨fun hp => ?_, fun hp => ?_, fun hp => ?_⟩
  · obtain ⟨pre, post, e1, e2, e3⟩ := removeFirst_split n.toNat v xs
    refine ⟨pre, post, e1, e3, ?_⟩
    rw [Spec.lrem, if_pos hp, e2] at hob
    have : (xs.length : Int) - ((removeAll v pre ++ post).length : Nat) = pre.count v := by
      have := removeAll_length v pre
      rw [e1]; simp; omega
    rw [this] at hob; exact hob
  · obtain ⟨pre, post, e1, e2, e3⟩ := removeFirst_split (-n).toNat v xs.reverse
    have e1' : xs = post.reverse ++ pre.reverse := by
      have := congrArg List.reverse e1; simpa using this
    refine ⟨post.reverse, pre.reverse, e1', by simpa using e3, ?_⟩
    rw [Spec.lrem, if_neg (by omega), if_neg (by omega), if_neg hm', removeLast, e2] at hob
    have e4 : (removeAll v pre ++ post).reverse = post.reverse ++ removeAll v pre.reverse := by
      simp [removeAll, List.filter_reverse]
    rw [e4] at hob
    have : (xs.length : Int) - ((post.reverse ++ removeAll v pre.reverse).length : Nat) = pre.reverse.count v := by
      have := removeAll_length v pre.reverse
      rw [e1']; simp at this ⊢; omega
    rw [this] at hob; exact hob
  · subst hp
    rw [Spec.lrem, if_neg (by omega), if_pos rfl] at hob
    have : (xs.length : Int) - ((removeAll v xs).length : Nat) = xs.count v := by
      have := removeAll_length v xs
      omega
    rw [this] at hob; exact hob

/-- C15 (missing key): LREM of a missing key replies 0 and changes nothing. -/
theorem C15_lrem_missing {l : Bytes} {n : Int} (h : Abs st a) (ho : env.ord.Fair) (hr : Request objs b!"lrem" [k, l, v])
    (hn : IsInt l n) (hk : a.lists k = none) : Answers env st objs a (.int 0) := by
  obtain ⟨out, hs, hob⟩ := handle_refines h ho (c := .lrem k n v) ⟨l, hr, hn⟩
  simp only [Step, hk] at hs
  subst hs; exact hob

/-- C15 (the two exceptions): with the element "dummy string" LREM of an existing key kills the server (unless the list is empty and the
count zero, or the count is -2^63); with the count -2^63 it replies 0 and removes nothing, as with the count zero on an empty list. -/
theorem C15_exceptions {l : Bytes} {n : Int} {xs : List Bytes} (h : Abs st a) (ho : env.ord.Fair) (hr : Request objs b!"lrem" [k, l, v])
    (hn : IsInt l n) (hk : a.lists k = some xs) :
    (v = b!"dummy string" → ¬ (n = 0 ∧ xs = []) → n ≠ -2 ^ 63 → Crashes env st objs) ∧ (n = -2 ^ 63 → Answers env st objs a (.int 0)) ∧
    (n = 0 → xs = [] → Answers env st objs a (.int 0)) := by
  obtain ⟨out, hs, hob⟩ := handle_refines h ho (c := .lrem k n v) ⟨l, hr, hn⟩
  simp only [Step, hk] at hs
  refine ⟨fun h1 h2 h3 => ?_, fun h1 => ?_, fun h1 h2 => ?_⟩
  · rw [if_pos ⟨h1, h2, h3⟩] at hs
    subst hs; exact hob
  · rw [if_neg (fun hc => hc.2.2 h1)] at hs
    subst hs
    have hm : n = minInt64 := h1
    have e : Spec.lrem n v xs = xs := by
      have : n < 0 := by rw [h1]; decide
      rw [Spec.lrem, if_neg (by omega), if_neg (by omega), if_pos hm]
    rw [e, setList_self hk] at hob
    simpa [done, Observes] using hob
  · rw [if_neg (fun hc => hc.2.1 ⟨h1, h2⟩)] at hs
    subst hs h1 h2
    have e : Spec.lrem 0 v [] = [] := rfl
    rw [e, setList_self hk] at hob
    simpa [done, Observes] using hob

/-- C15 (counterexample): a list with three elements; LREM l 1 "dummy string" kills the server. -/
theorem C15_false : ∃ st, Reachable st ∧ handle env0 st (req [b!"LREM", b!"l", b!"1", b!"dummy string"]) = .panic := by
  obtain ⟨st, hr, ha⟩ := sample_reachable
  exact ⟨st, hr, (C15_exceptions ha env0_fair (objs := req [b!"LREM", b!"l", b!"1", b!"dummy string"]) (k := b!"l") (v := b!"dummy string")
    (l := b!"1") (n := 1) (request_req _) (isInt_iff.2 (by decide)) rfl).1 rfl (by decide) (by decide)⟩

/-- The hypotheses can be met, and give the expected reply: removing the last "a" of a, b, a, c. -/
example : ∃ st st', Reachable st ∧ handle env0 st (req [b!"LREM", b!"l", b!"-1", b!"a"]) = .ok (st', .int 1) ∧
    Abs st' (sampleDB.setList b!"l" [b!"a", b!"b", b!"c"]) := by
  obtain ⟨st, hr, ha⟩ := sample_reachable
  obtain ⟨out, hs, hob⟩ := handle_refines ha env0_fair (objs := req [b!"LREM", b!"l", b!"-1", b!"a"]) (c := .lrem b!"l" (-1) b!"a")
    ⟨b!"-1", request_req _, isInt_iff.2 (by decide)⟩
  have e : sampleDB.lists b!"l" = some [b!"a", b!"b", b!"a", b!"c"] := rfl
  simp only [Step, e] at hs
  rw [if_neg (by decide)] at hs
  subst hs
  obtain ⟨st', e, ha'⟩ := hob
  exact ⟨st, st', hr, e, ha'⟩

/-! ## C16

As documented the property is false for the pivot "dummy string", the text stored in the sentinel nodes. -/

/-- C16 (partial: the pivot is not "dummy string"): LINSERT puts the element right before or after the first occurrence of the pivot and
replies the new length; without the pivot it replies -1, for a missing key 0, and changes nothing. -/
theorem C16_linsert_partial {w p : Bytes} {after : Bool} (h : Abs st a) (ho : env.ord.Fair) (hr : Request objs b!"linsert" [k, w, p, v])
    (hw : Folds w (if after then b!"after" else b!"before")) (hp : p ≠ b!"dummy string") :
    (∀ pre post, a.lists k = some (pre ++ p :: post) → p ∉ pre →
      Answers env st objs (a.setList k (if after then pre ++ p :: v :: post else pre ++ v :: p :: post)) (.int (pre.length + post.length + 2))) ∧
    (∀ xs, a.lists k = some xs → p ∉ xs → Answers env st objs a (.int (-1))) ∧
    (a.lists k = none → Answers env st objs a (.int 0)) := by
  obtain ⟨out, hs, hob⟩ := handle_refines h ho (c := .linsert k after p v) ⟨w, hr, hw⟩
  simp only [Step] at hs
  refine ⟨fun pre post e hn => ?_, fun xs e hn => ?_, fun e => ?_⟩
  · rw [e] at hs
    simp only at hs
    rw [if_neg hp] at hs
    rcases hs with ⟨h1, -⟩ | ⟨pre', post', hf, rfl⟩
    · simp at h1
    · have : pre = pre' ∧ post = post' := by
        have h1 := hf.1
        have h2 := hf.2
        clear hob hf e
        induction pre generalizing pre' with
        | nil => cases pre' with
          | nil => simpa using h1
          | cons y ys => simp at h1; exact absurd h1.1 (by rintro rfl; simp at h2)
        | cons x pre ih => cases pre' with
          | nil => simp at h1; exact absurd h1.1 (by rintro rfl; simp at hn)
          | cons y ys =>
            simp at h1 h2 hn
            obtain ⟨rfl, h1⟩ := h1
            have := ih hn.2 ys h1 h2.2
            simp [this]
      obtain ⟨rfl, rfl⟩ := this
      have e : ((pre ++ p :: post).length : Int) + 1 = pre.length + post.length + 2 := by simp; omega
      rw [e] at hob; exact hob
  · rw [e] at hs
    simp only at hs
    rw [if_neg hp] at hs
    rcases hs with ⟨-, rfl⟩ | ⟨pre', post', hf, rfl⟩
    · exact hob
    · rw [hf.1] at hn; simp at hn
  · rw [e] at hs
    simp only at hs
    subst hs; exact hob

/-- C16 (the exception): with the pivot "dummy string" and an existing list, AFTER inserts at the front although the pivot does not
occur, and BEFORE kills the server. -/
theorem C16_exception {w : Bytes} {after : Bool} {xs : List Bytes} (h : Abs st a) (ho : env.ord.Fair)
    (hr : Request objs b!"linsert" [k, w, b!"dummy string", v]) (hw : Folds w (if after then b!"after" else b!"before")) (hk : a.lists k = some xs) :
    (after = true → Answers env st objs (a.setList k (v :: xs)) (.int (xs.length + 1))) ∧ (after = false → Crashes env st objs) := by
  obtain ⟨out, hs, hob⟩ := handle_refines h ho (c := .linsert k after b!"dummy string" v) ⟨w, hr, hw⟩
  simp only [Step, hk] at hs
  cases after with
  | true => simp at hs; subst hs; exact ⟨fun _ => hob, by simp⟩
  | false => simp at hs; subst hs; exact ⟨by simp, fun _ => hob⟩

/-- C16 (counterexample). -/
theorem C16_false : ∃ st, Reachable st ∧ handle env0 st (req [b!"LINSERT", b!"l", b!"BEFORE", b!"dummy string", b!"x"]) = .panic ∧
    ∃ st', handle env0 st (req [b!"LINSERT", b!"l", b!"AFTER", b!"dummy string", b!"x"]) = .ok (st', .int 5) := by
  obtain ⟨st, hr, ha⟩ := sample_reachable
  obtain ⟨st', e, -⟩ := (C16_exception ha env0_fair (objs := req [b!"LINSERT", b!"l", b!"AFTER", b!"dummy string", b!"x"]) (k := b!"l") (v := b!"x")
    (w := b!"AFTER") (after := true) (request_req _) ((folds_iff (by decide)).1 (by decide)) rfl).1 rfl
  exact ⟨st, hr, (C16_exception ha env0_fair (objs := req [b!"LINSERT", b!"l", b!"BEFORE", b!"dummy string", b!"x"]) (k := b!"l") (v := b!"x")
    (w := b!"BEFORE") (after := false) (request_req _) ((folds_iff (by decide)).1 (by decide)) rfl).2 rfl, st', e⟩

/-- The hypotheses can be met: the pivot "b" of a, b, a, c. -/
example : ∃ st, Reachable st ∧ Abs st sampleDB ∧
    Request (req [b!"LINSERT", b!"l", b!"Before", b!"b", b!"x"]) b!"linsert" [b!"l", b!"Before", b!"b", b!"x"] ∧ Folds b!"Before" b!"before" ∧
    sampleDB.lists b!"l" = some ([b!"a"] ++ b!"b" :: [b!"a", b!"c"]) := by
  obtain ⟨st, hr, ha⟩ := sample_reachable
  exact ⟨st, hr, ha, request_req _, (folds_iff (by decide)).1 (by decide), rfl⟩

/-! ## C17 -/

/-- C17 (exact window): LRANGE replies the elements of the window `ListWindow`, in order, and a null array when there is none; nothing
changes. -/
theorem C17_lrange {l r : Bytes} {x y : Int} (h : Abs st a) (ho : env.ord.Fair) (hr : Request objs b!"lrange" [k, l, r]) (hl : IsInt l x)
    (hy : IsInt r y) :
    let xs := a.listAt k
    (∀ i j : Nat, ListWindow x y xs.length i j → ∃ ys : List Bytes, Answers env st objs a (.array (ys.map .bulk)) ∧ ys.length = j + 1 - i ∧
      ∀ p < ys.length, ys[p]? = xs[i + p]?) ∧
    ((¬ ∃ i j : Nat, ListWindow x y xs.length i j) → Answers env st objs a .nullArray) := by
  intro xs
  obtain ⟨out, hs, hob⟩ := handle_refines h ho (c := .lrange k x y) ⟨l, r, hr, hl, hy⟩
  simp only [Step] at hs
  constructor
  · intro i j hw
    rcases hs with ⟨i', j', hw', rfl⟩ | ⟨hn, -⟩
    · change ListWindow x y xs.length i' j' at hw'
      have e1 : i' = i ∧ j' = j := by unfold ListWindow Window Denotes at hw hw'; split at hw <;> simp_all <;> omega
      obtain ⟨rfl, rfl⟩ := e1
      have hb : i' ≤ j' ∧ j' < xs.length := by unfold ListWindow Window Denotes at hw; omega
      refine ⟨_, hob, ?_, fun p hp => ?_⟩
      · simp only [slice, List.length_take, List.length_drop]; show min _ (xs.length - _) = _; omega
      · have hp' : p < j' + 1 - i' := by
          simp only [slice, List.length_take, List.length_drop] at hp; omega
        simp only [slice]
        rw [List.getElem?_take_of_lt (by omega), List.getElem?_drop]
        rfl
    · exact absurd ⟨i, j, hw⟩ hn
  · intro hn
    rcases hs with ⟨i', j', hw', rfl⟩ | ⟨-, rfl⟩
    · exact absurd ⟨i', j', hw'⟩ hn
    · exact hob

/-- C17 (partial: the right bound is at least minus the length): then the window is the documented one. -/
theorem C17_lrange_partial {l r : Bytes} {x y : Int} (h : Abs st a) (ho : env.ord.Fair) (hr : Request objs b!"lrange" [k, l, r])
    (hl : IsInt l x) (hy : IsInt r y) (hb : -(a.listAt k).length ≤ y) :
    let xs := a.listAt k
    (∀ i j : Nat, Window x y xs.length i j → ∃ ys : List Bytes, Answers env st objs a (.array (ys.map .bulk)) ∧ ys.length = j + 1 - i ∧
      ∀ p < ys.length, ys[p]? = xs[i + p]?) ∧
    ((¬ ∃ i j : Nat, Window x y xs.length i j) → Answers env st objs a .nullArray) := by
  have := C17_lrange h ho hr hl hy
  simp only [ListWindow] at this
  rw [if_neg (by omega)] at this
  exact this

/-- C17 (counterexample): on a, b, a, c the request LRANGE l 0 -5 denotes no window, but replies all four elements. -/
theorem C17_false : ∃ st st', Reachable st ∧ Abs st sampleDB ∧ (¬ ∃ i j : Nat, Window 0 (-5) (sampleDB.listAt b!"l").length i j) ∧
    handle env0 st (req [b!"LRANGE", b!"l", b!"0", b!"-5"]) = .ok (st', .array [.bulk b!"a", .bulk b!"b", .bulk b!"a", .bulk b!"c"]) := by
  obtain ⟨st, hr, ha⟩ := sample_reachable
  have e : sampleDB.listAt b!"l" = [b!"a", b!"b", b!"a", b!"c"] := rfl
  obtain ⟨ys, ⟨st', e1, -⟩, hlen, hy⟩ := (C17_lrange ha env0_fair (objs := req [b!"LRANGE", b!"l", b!"0", b!"-5"]) (k := b!"l") (l := b!"0") (r := b!"-5")
    (x := 0) (y := -5) (request_req _) (isInt_iff.2 (by decide)) (isInt_iff.2 (by decide))).1 0 3 (by
      rw [e]; unfold ListWindow Window Denotes; simp)
  refine ⟨st, st', hr, ha, ?_, ?_⟩
  · rintro ⟨i, j, hw⟩
    rw [e] at hw
    unfold Window Denotes at hw
    simp at hw
    omega
  · have : ys = [b!"a", b!"b", b!"a", b!"c"] := by
      apply List.ext_getElem?
      intro p
      by_cases hp : p < ys.length
      · rw [hy p hp, e]; simp
      · rw [List.getElem?_eq_none (by omega), List.getElem?_eq_none (by simp at hlen ⊢; omega)]
    rw [this] at e1
    exact e1

/-- The hypotheses can be met: LRANGE l 1 -2 on a, b, a, c. -/
example : ∃ st, Reachable st ∧ Abs st sampleDB ∧ Request (req [b!"lrange", b!"l", b!"1", b!"-2"]) b!"lrange" [b!"l", b!"1", b!"-2"] ∧
    IsInt b!"1" 1 ∧ IsInt b!"-2" (-2) ∧ -(sampleDB.listAt b!"l").length ≤ (-2 : Int) ∧ Window 1 (-2) (sampleDB.listAt b!"l").length 1 2 := by
  obtain ⟨st, hr, ha⟩ := sample_reachable
  refine ⟨st, hr, ha, request_req _, isInt_iff.2 (by decide), isInt_iff.2 (by decide), by decide, ?_⟩
  have e : sampleDB.listAt b!"l" = [b!"a", b!"b", b!"a", b!"c"] := rfl
  rw [e]; unfold Window Denotes; simp

/-! ## C18 -/

/-- C18: LTRIM is answered OK and leaves exactly the elements LRANGE with the same bounds would reply; when LRANGE would reply a null
array it changes nothing. -/
theorem C18_ltrim {l r : Bytes} {x y : Int} (h : Abs st a) (ho : env.ord.Fair) (ho' : env'.ord.Fair) (hr : Request objs b!"ltrim" [k, l, r])
    (hr' : Request objs' b!"lrange" [k, l, r]) (hl : IsInt l x) (hy : IsInt r y) :
    (∃ ys : List Bytes, ys ≠ [] ∧ Answers env' st objs' a (.array (ys.map .bulk)) ∧ Answers env st objs (a.setList k ys) (.simple b!"OK")) ∨
    (Answers env' st objs' a .nullArray ∧ Answers env st objs a (.simple b!"OK")) := by
  obtain ⟨out, hs, hob⟩ := handle_refines h ho (c := .ltrim k x y) ⟨l, r, hr, hl, hy⟩
  obtain ⟨out', hs', hob'⟩ := handle_refines h ho' (c := .lrange k x y) ⟨l, r, hr', hl, hy⟩
  simp only [Step] at hs hs'
  rcases hs with ⟨i, j, hw, rfl⟩ | ⟨hn, rfl⟩ <;> rcases hs' with ⟨i', j', hw', rfl⟩ | ⟨hn', rfl⟩
  · have e1 : i' = i ∧ j' = j := by unfold ListWindow Window Denotes at hw hw'; split at hw <;> simp_all <;> omega
    obtain ⟨rfl, rfl⟩ := e1
    refine .inl ⟨_, ?_, hob', hob⟩
    intro he
    have hb : i' ≤ j' ∧ j' < (a.listAt k).length := by unfold ListWindow Window Denotes at hw; omega
    have := congrArg List.length he
    simp only [slice, List.length_take, List.length_drop, List.length_nil] at this
    omega
  · exact absurd ⟨i, j, hw⟩ hn'
  · exact absurd ⟨i', j', hw'⟩ hn
  · exact .inr ⟨hob', hob⟩

/-- The hypotheses can be met. -/
example : ∃ st, Reachable st ∧ Abs st sampleDB ∧ Request (req [b!"ltrim", b!"l", b!"1", b!"-2"]) b!"ltrim" [b!"l", b!"1", b!"-2"] ∧
    Request (req [b!"lrange", b!"l", b!"1", b!"-2"]) b!"lrange" [b!"l", b!"1", b!"-2"] ∧ IsInt b!"1" 1 ∧ IsInt b!"-2" (-2) := by
  obtain ⟨st, hr, ha⟩ := sample_reachable
  exact ⟨st, hr, ha, request_req _, request_req _, isInt_iff.2 (by decide), isInt_iff.2 (by decide)⟩

/-! ## C19 -/

/-- C19 (LINDEX): the element at the denoted position, or null if the index denotes none; nothing changes. -/
theorem C19_lindex {l : Bytes} {i : Int} (h : Abs st a) (ho : env.ord.Fair) (hr : Request objs b!"lindex" [k, l]) (hl : IsInt l i) :
    (∀ (p : Nat) x, Denotes i (a.listAt k).length p → (a.listAt k)[p]? = some x → Answers env st objs a (.bulk x)) ∧
    ((¬ ∃ p : Nat, Denotes i (a.listAt k).length p) → Answers env st objs a .nullBulk) := by
  obtain ⟨out, hs, hob⟩ := handle_refines h ho (c := .lindex k i) ⟨l, hr, hl⟩
  simp only [Step] at hs
  refine ⟨fun p x hd hx => ?_, fun hn => ?_⟩
  · rcases hs with ⟨p', x', hd', hx', rfl⟩ | ⟨hn, -⟩
    · have : p = p' := by unfold Denotes at hd hd'; omega
      subst this
      rw [hx] at hx'; cases hx'; exact hob
    · exact absurd ⟨p, hd⟩ hn
  · rcases hs with ⟨p', x', hd', hx', rfl⟩ | ⟨-, rfl⟩
    · exact absurd ⟨p', hd'⟩ hn
    · exact hob

/-- C19 (LSET): exactly the element at the denoted position changes; out of range, or for a missing key, an error and no change. -/
theorem C19_lset {l : Bytes} {i : Int} (h : Abs st a) (ho : env.ord.Fair) (hr : Request objs b!"lset" [k, l, v]) (hl : IsInt l i) :
    (∀ xs (p : Nat), a.lists k = some xs → Denotes i xs.length p → ∃ ys, Answers env st objs (a.setList k ys) (.simple b!"OK") ∧
      ys.length = xs.length ∧ ys[p]? = some v ∧ ∀ q, q ≠ p → ys[q]? = xs[q]?) ∧
    (∀ xs, a.lists k = some xs → (¬ ∃ p : Nat, Denotes i xs.length p) → Answers env st objs a (.error b!"ERR index out of range")) ∧
    (a.lists k = none → Answers env st objs a (.error b!"ERR no such key")) := by
  obtain ⟨out, hs, hob⟩ := handle_refines h ho (c := .lset k i v) ⟨l, hr, hl⟩
  simp only [Step] at hs
  refine ⟨fun xs p e hd => ?_, fun xs e hn => ?_, fun e => ?_⟩
  · rw [e] at hs
    simp only at hs
    rcases hs with ⟨p', hd', rfl⟩ | ⟨hn, -⟩
    · have : p = p' := by unfold Denotes at hd hd'; omega
      subst this
      refine ⟨_, hob, by simp, ?_, fun q hq => ?_⟩
      · rw [List.getElem?_set_self (by unfold Denotes at hd; omega)]
      · rw [List.getElem?_set_ne (Ne.symm hq)]
    · exact absurd ⟨p, hd⟩ hn
  · rw [e] at hs
    simp only at hs
    rcases hs with ⟨p', hd', rfl⟩ | ⟨-, rfl⟩
    · exact absurd ⟨p', hd'⟩ hn
    · obtain ⟨r, her, hb⟩ := hob
      cases her; exact hb
  · rw [e] at hs
    simp only at hs
    subst hs
    obtain ⟨r, her, hb⟩ := hob
    cases her; exact hb

/-- C19 (agreement): LINDEX right after an LSET with the same index replies the new element. -/
theorem C19_set_then_index {l : Bytes} {i : Int} {xs : List Bytes} {p : Nat} (h : Abs st a) (ho : env.ord.Fair) (ho' : env'.ord.Fair)
    (hr : Request objs b!"lset" [k, l, v]) (hr' : Request objs' b!"lindex" [k, l]) (hl : IsInt l i) (hk : a.lists k = some xs)
    (hd : Denotes i xs.length p) : ∃ st', serve st [(env, objs), (env', objs')] = .ok (st', [.simple b!"OK", .bulk v]) := by
  obtain ⟨ys, ⟨st1, e1, a1⟩, h1, h2, h3⟩ := (C19_lset h ho hr hl).1 xs p hk hd
  have e : (a.setList k ys).listAt k = ys := by simp [DB.setList, DB.listAt]
  obtain ⟨st2, e2, -⟩ := (C19_lindex a1 ho' hr' hl).1 p v (by rw [e, h1]; exact hd) (by rw [e]; exact h2)
  exact ⟨st2, by simp [serve, e1, e2]⟩

/-- The hypotheses can be met: LSET l -2 x on a, b, a, c addresses position 2; index 4 is out of range. -/
example : ∃ st, Reachable st ∧ Abs st sampleDB ∧ Request (req [b!"lset", b!"l", b!"-2", b!"x"]) b!"lset" [b!"l", b!"-2", b!"x"] ∧
    Request (req [b!"lindex", b!"l", b!"-2"]) b!"lindex" [b!"l", b!"-2"] ∧ IsInt b!"-2" (-2) ∧
    sampleDB.lists b!"l" = some [b!"a", b!"b", b!"a", b!"c"] ∧ Denotes (-2) 4 2 ∧ ¬ ∃ p : Nat, Denotes 4 4 p := by
  obtain ⟨st, hr, ha⟩ := sample_reachable
  refine ⟨st, hr, ha, request_req _, request_req _, isInt_iff.2 (by decide), rfl, by unfold Denotes; omega, ?_⟩
  rintro ⟨p, hp⟩; unfold Denotes at hp; omega

end Verif.Props
