import Verif.Lemmas.Isolation
import Verif.Lemmas.Sample
import Verif.Props.Replay
import Verif.Props.Pipe

/-! C57 and C58: clients that keep to their own keys do not notice each other. -/

namespace Verif.Props

open Spec

theorem _root_.Verif.Spec.SameReply.symm {r s : Resp} (h : SameReply r s) : SameReply s r := by
  rcases h with rfl | ⟨h, h'⟩
  · exact .inl rfl
  · exact .inr ⟨h', h⟩

theorem _root_.Verif.Spec.SameReply.trans {r s t : Resp} (h : SameReply r s) (h' : SameReply s t) : SameReply r t := by
  rcases h with rfl | ⟨h, g⟩
  · exact h'
  · rcases h' with rfl | ⟨h', g'⟩
    · exact .inr ⟨h, g⟩
    · exact .inr ⟨h, g'⟩

/-- One request on two databases that agree on the keys it mentions. -/
theorem handle_same {P : Space → Bytes → Prop} {env env' : Env} {st st' : State} {a b : DB} {objs : List Resp} (h : Abs st a) (h' : Abs st' b)
    (hab : AgreeOn P a b) (ho : env.ord.Fair) (ho' : env'.ord.Fair) (hP : ∀ sp k, Names sp objs k → P sp k)
    (hd : ∀ n ∈ unordered, ¬ ∃ os, Calls objs n os) :
    (handle env st objs = .panic ∧ handle env' st' objs = .panic) ∨
    ∃ s s' a1 b1 r r', handle env st objs = .ok (s, r) ∧ handle env' st' objs = .ok (s', r') ∧ Abs s a1 ∧ Abs s' b1 ∧ AgreeOn P a1 b1 ∧
      SameReply r r' := by
  by_cases hm : ∃ c, Means objs c
  · obtain ⟨c, hm⟩ := hm
    have hd := ordered_determined hm hd
    obtain ⟨o1, s1, b1⟩ := handle_refines h ho hm
    obtain ⟨o2, s2, b2⟩ := handle_refines h' ho' hm
    have hsame := step_det hd (step_agree hm hP hab s1) s2
    rcases o1 with _ | ⟨a1, e1 | r1⟩ <;> rcases o2 with _ | ⟨a2, e2 | r2⟩ <;> simp only [patchOut, Option.map, SameOut] at hsame
    · exact .inl ⟨b1, b2⟩
    · obtain ⟨rfl, hsame⟩ := hsame
      obtain ⟨x, hx, y, hy, hz⟩ := b1
      obtain ⟨x', hx', y', hy', hz'⟩ := b2
      exact .inr ⟨_, _, _, _, _, _, hy, hy', hz, hz', agree_patch, sameReply_err hsame hx hx'⟩
    · obtain ⟨rfl, rfl⟩ := hsame
      obtain ⟨y, hy, hz⟩ := b1
      obtain ⟨y', hy', hz'⟩ := b2
      exact .inr ⟨_, _, _, _, _, _, hy, hy', hz, hz', agree_patch, .inl rfl⟩
  · obtain ⟨e, g1, g2⟩ := handle_bad (env := env) (st := st) hm
    obtain ⟨e', g1', g2'⟩ := handle_bad (env := env') (st := st') hm
    rw [g1] at g1'; cases g1'
    exact .inr ⟨_, _, _, _, _, _, g2, g2', h, h', hab, .inl rfl⟩

/-- C57 (one request): on two servers that hold the same under the keys a request mentions, whatever else they hold, the request has the
same fate: it kills both, or both give the same reply and hold the same under these keys afterwards. Requests with random or unordered
answers are left out here, see `C57_isolation`. -/
theorem C57_local {env env' : Env} {st st' : State} {a b : DB} {objs : List Resp} (h : Abs st a) (h' : Abs st' b)
    (hab : AgreeOn (fun sp k => Names sp objs k) a b) (ho : env.ord.Fair) (ho' : env'.ord.Fair)
    (hd : ∀ n ∈ unordered, ¬ ∃ os, Calls objs n os) :
    (Crashes env st objs ∧ Crashes env' st' objs) ∨
    ∃ a' b' r r', Answers env st objs a' r ∧ Answers env' st' objs b' r' ∧ SameReply r r' ∧ AgreeOn (fun sp k => Names sp objs k) a' b' := by
  rcases handle_same h h' hab ho ho' (fun _ _ hn => hn) hd with h | ⟨s, s', a1, b1, r, r', e, e', ha, hb, hag, hr⟩
  · exact .inl h
  · exact .inr ⟨a1, b1, r, r', ⟨s, e, ha⟩, ⟨s', e', hb⟩, hr, hag⟩

/-- C57: many clients' requests are answered in any order. No client writes to a key another one mentions. Then each client is told
what the abstract database could tell it if its own requests were the only ones, for all commands; and the keys it mentions hold afterwards
what they would hold then. -/
theorem C57_isolation {st st' : State} {a : DB} {qs : List Sent} {rs : List Resp} (h : Abs st a) (hf : ∀ q ∈ qs, q.2.1.ord.Fair)
    (hsep : Separate qs) (hs : serve st (qs.map Prod.snd) = .ok (st', rs)) :
    ∀ i, ∃ a' b, Abs st' a' ∧ Trace a ((sentBy i qs).map Prod.snd) (toldTo i qs rs) b ∧ AgreeOn (KeyOf i qs) a' b := by
  intro i
  refine serve_client h .refl hf (fun q hq hi sp k hk => ⟨q, hq, hi, hk⟩) ?_ hs
  rintro q hq hi sp k hw ⟨p, hp, rfl, hn⟩
  exact hsep q hq p hp hi sp k hw hn

theorem serve_alone {P : Space → Bytes → Prop} {i : Nat} {st st' s : State} {a b : DB} {qs : List Sent} {ms : List (Env × List Resp)}
    {rs : List Resp} (h : Abs st a) (h' : Abs s b) (hab : AgreeOn P a b) (hf : ∀ q ∈ qs, q.2.1.ord.Fair)
    (hn : ∀ q ∈ qs, q.1 = i → ∀ sp k, Names sp q.2.2 k → P sp k) (hw : ∀ q ∈ qs, q.1 ≠ i → ∀ sp k, Writes sp q.2.2 k → ¬ P sp k)
    (hd : ∀ q ∈ qs, q.1 = i → ∀ n ∈ unordered, ¬ ∃ os, Calls q.2.2 n os) (hfm : ∀ q ∈ ms, q.1.ord.Fair)
    (hm : ms.map Prod.snd = (sentBy i qs).map Prod.snd) (hs : serve st (qs.map Prod.snd) = .ok (st', rs)) :
    ∃ s' rs' a' b', serve s ms = .ok (s', rs') ∧ List.Forall₂ SameReply (toldTo i qs rs) rs' ∧ Abs st' a' ∧ Abs s' b' ∧ AgreeOn P a' b' := by
  induction qs generalizing st s a b rs ms with
  | nil =>
    cases hs
    cases ms with
    | nil => exact ⟨s, [], a, b, rfl, .nil, h, h', hab⟩
    | cons => simp [sentBy] at hm
  | cons q qs ih =>
    obtain ⟨j, env, objs⟩ := q
    have hfq := hf _ List.mem_cons_self
    have hf' := fun p hp => hf p (List.mem_cons_of_mem _ hp)
    have hn' := fun p hp => hn p (List.mem_cons_of_mem _ hp)
    have hw' := fun p hp => hw p (List.mem_cons_of_mem _ hp)
    have hd' := fun p hp => hd p (List.mem_cons_of_mem _ hp)
    simp only [List.map_cons, serve] at hs
    split at hs <;> try cases hs
    rename_i st1 r he
    split at hs <;> try cases hs
    rename_i rs' hs'
    by_cases hj : j = i
    · subst hj
      have e1 : sentBy j ((j, env, objs) :: qs) = (env, objs) :: sentBy j qs := by simp [sentBy]
      have e2 : toldTo j ((j, env, objs) :: qs) (r :: rs') = r :: toldTo j qs rs' := by simp [toldTo]
      rw [e1] at hm; rw [e2]
      obtain _ | ⟨⟨env', objs'⟩, ms⟩ := ms
      · simp at hm
      simp only [List.map_cons, List.cons.injEq] at hm
      obtain ⟨rfl, hm⟩ := hm
      rcases handle_same h h' hab hfq (hfm _ List.mem_cons_self) (hn _ List.mem_cons_self rfl) (hd _ List.mem_cons_self rfl) with
        ⟨e, -⟩ | ⟨s1, s1', a1, b1, r1, r1', e, e', ha, hb, hag, hr⟩
      · rw [he] at e; cases e
      · rw [he] at e; cases e
        obtain ⟨s', rs1, a', b', g1, g2, g3⟩ := ih ha hb hag hf' hn' hw' hd' (fun q hq => hfm q (List.mem_cons_of_mem _ hq)) hm hs'
        exact ⟨s', r1' :: rs1, a', b', by simp only [serve, e', g1], .cons hr g2, g3⟩
    · have e1 : sentBy i ((j, env, objs) :: qs) = sentBy i qs := by simp [sentBy, hj]
      have e2 : toldTo i ((j, env, objs) :: qs) (r :: rs') = toldTo i qs rs' := by simp [toldTo, hj]
      rw [e1] at hm; rw [e2]
      obtain ⟨a1, ha, hag⟩ := handle_agree h hfq (hw _ List.mem_cons_self hj) he
      exact ih ha h' (hag.trans hab) hf' hn' hw' hd' hfm hm hs'

/-- C57, comparing two servers: a client that uses no unordered commands is told, among others, what it is told when it has the server for
itself. -/
theorem C57_alone {st st' : State} {a : DB} {qs : List Sent} {rs : List Resp} (h : Abs st a) (hf : ∀ q ∈ qs, q.2.1.ord.Fair)
    (hsep : Separate qs) (hs : serve st (qs.map Prod.snd) = .ok (st', rs)) (i : Nat)
    (hd : ∀ q ∈ qs, q.1 = i → ∀ n ∈ unordered, ¬ ∃ os, Calls q.2.2 n os) :
    ∃ s rs' a' b, serve st (sentBy i qs) = .ok (s, rs') ∧ List.Forall₂ SameReply (toldTo i qs rs) rs' ∧ Abs st' a' ∧ Abs s b ∧
      AgreeOn (KeyOf i qs) a' b := by
  refine serve_alone h h .refl hf (fun q hq hi sp k hk => ⟨q, hq, hi, hk⟩) ?_ hd ?_ rfl hs
  · rintro q hq hi sp k hw ⟨p, hp, rfl, hn⟩
    exact hsep q hq p hp hi sp k hw hn
  · intro q hq
    obtain ⟨p, hp, rfl⟩ := List.mem_map.1 hq
    exact hf p (List.mem_filter.1 hp).1

theorem serve_survives {P : Nat → Space → Bytes → Prop} {st : State} {a : DB} {qs : List Sent} {s : Nat → State} {b : Nat → DB} (h : Abs st a)
    (h' : ∀ i, Abs (s i) (b i)) (hab : ∀ i, AgreeOn (P i) a (b i)) (hf : ∀ q ∈ qs, q.2.1.ord.Fair)
    (hn : ∀ q ∈ qs, ∀ sp k, Names sp q.2.2 k → P q.1 sp k) (hw : ∀ q ∈ qs, ∀ i, q.1 ≠ i → ∀ sp k, Writes sp q.2.2 k → ¬ P i sp k)
    (hd : ∀ q ∈ qs, ∀ n ∈ unordered, ¬ ∃ os, Calls q.2.2 n os)
    (hs : ∀ i, ∃ t rs, serve (s i) (sentBy i qs) = .ok (t, rs)) :
    ∃ st' rs, serve st (qs.map Prod.snd) = .ok (st', rs) := by
  induction qs generalizing st a s b with
  | nil => exact ⟨st, [], rfl⟩
  | cons q qs ih =>
    obtain ⟨j, env, objs⟩ := q
    have hfq := hf _ List.mem_cons_self
    have e1 : sentBy j ((j, env, objs) :: qs) = (env, objs) :: sentBy j qs := by simp [sentBy]
    obtain ⟨t, rs, hj⟩ := hs j
    rw [e1] at hj
    simp only [serve] at hj
    split at hj <;> try cases hj
    rename_i sj rj he
    split at hj <;> try cases hj
    rename_i rsj hj'
    rcases handle_same h (h' j) (hab j) hfq hfq (hn _ List.mem_cons_self) (hd _ List.mem_cons_self) with
      ⟨-, e⟩ | ⟨s1, s1', a1, b1, r1, r1', e, e', ha, hb, hag, hr⟩
    · rw [he] at e; cases e
    rw [he] at e'; cases e'
    obtain ⟨st', rs', g⟩ := ih (s := Function.update s j sj) (b := Function.update b j b1) ha
      (fun i => by
        by_cases hi : i = j
        · subst hi; simpa using hb
        · simpa [Function.update_of_ne hi] using h' i)
      (fun i => by
        by_cases hi : i = j
        · subst hi; simpa using hag
        · rw [Function.update_of_ne hi]
          obtain ⟨a2, ha2, hag2⟩ := handle_agree h hfq (hw _ List.mem_cons_self i (Ne.symm hi)) e
          rw [abs_unique ha ha2]
          exact hag2.trans (hab i))
      (fun p hp => hf p (List.mem_cons_of_mem _ hp)) (fun p hp => hn p (List.mem_cons_of_mem _ hp))
      (fun p hp => hw p (List.mem_cons_of_mem _ hp)) (fun p hp => hd p (List.mem_cons_of_mem _ hp))
      (fun i => by
        by_cases hi : i = j
        · subst hi; exact ⟨t, rsj, by simpa using hj'⟩
        · rw [Function.update_of_ne hi]
          obtain ⟨t', rs'', g⟩ := hs i
          have e1 : sentBy i ((j, env, objs) :: qs) = sentBy i qs := by simp [sentBy, Ne.symm hi]
          rw [e1] at g
          exact ⟨t', rs'', g⟩)
    exact ⟨st', r1 :: rs', by simp only [List.map_cons, serve, e, g]⟩

theorem serve_unnamed {st st' : State} {a : DB} {qs : List Sent} {rs : List Resp} (h : Abs st a) (hf : ∀ q ∈ qs, q.2.1.ord.Fair)
    (hs : serve st (qs.map Prod.snd) = .ok (st', rs)) :
    ∃ a', Abs st' a' ∧ AgreeOn (fun sp k => ∀ i, ¬ KeyOf i qs sp k) a' a := by
  suffices ∀ P : Space → Bytes → Prop, (∀ q ∈ qs, ∀ sp k, Writes sp q.2.2 k → ¬ P sp k) → ∃ a', Abs st' a' ∧ AgreeOn P a' a by
    exact this _ fun q hq sp k hw hP => hP q.1 ⟨q, hq, rfl, writes_names hw⟩
  intro P hw
  induction qs generalizing st a rs with
  | nil => cases hs; exact ⟨a, h, .refl⟩
  | cons q qs ih =>
    obtain ⟨j, env, objs⟩ := q
    simp only [List.map_cons, serve] at hs
    split at hs <;> try cases hs
    rename_i st1 r he
    split at hs <;> try cases hs
    rename_i rs' hs'
    obtain ⟨a1, ha, hag⟩ := handle_agree h (hf _ List.mem_cons_self) (hw _ List.mem_cons_self) he
    obtain ⟨a', g1, g2⟩ := ih ha (fun p hp => hf p (List.mem_cons_of_mem _ hp)) hs' (fun p hp => hw p (List.mem_cons_of_mem _ hp))
    exact ⟨a', g1, g2.trans hag⟩

theorem mem_sentBy {i : Nat} {qs : List Sent} {objs : List Resp} :
    objs ∈ (sentBy i qs).map Prod.snd ↔ ∃ q ∈ qs, q.1 = i ∧ q.2.2 = objs := by
  simp only [sentBy, List.map_map, List.mem_map, List.mem_filter, decide_eq_true_eq, Function.comp_apply]
  constructor
  · rintro ⟨q, ⟨hq, hi⟩, e⟩; exact ⟨q, hq, hi, e⟩
  · rintro ⟨q, hq, hi, e⟩; exact ⟨q, ⟨hq, hi⟩, e⟩

/-- C58: the same requests of the same clients, merged in two different ways, each client's own order kept. No client writes to a key
another one mentions. If the server survives one order it survives the other, every client is told the same, and the database ends up the
same. -/
theorem C58_any_order {st st₁ : State} {a : DB} {qs qs' : List Sent} {rs : List Resp} (h : Abs st a) (hf : ∀ q ∈ qs, q.2.1.ord.Fair)
    (hf' : ∀ q ∈ qs', q.2.1.ord.Fair) (hsep : Separate qs) (hd : ∀ q ∈ qs, ∀ n ∈ unordered, ¬ ∃ os, Calls q.2.2 n os)
    (hm : ∀ i, (sentBy i qs).map Prod.snd = (sentBy i qs').map Prod.snd) (hs : serve st (qs.map Prod.snd) = .ok (st₁, rs)) :
    ∃ st₂ rs', serve st (qs'.map Prod.snd) = .ok (st₂, rs') ∧ (∀ i, List.Forall₂ SameReply (toldTo i qs rs) (toldTo i qs' rs')) ∧
      ∃ a', Abs st₁ a' ∧ Abs st₂ a' := by
  have corr : ∀ q ∈ qs', ∃ p ∈ qs, p.1 = q.1 ∧ p.2.2 = q.2.2 := fun q hq =>
    mem_sentBy.1 ((hm q.1) ▸ mem_sentBy.2 ⟨q, hq, rfl, rfl⟩)
  have corr' : ∀ q ∈ qs, ∃ p ∈ qs', p.1 = q.1 ∧ p.2.2 = q.2.2 := fun q hq =>
    mem_sentBy.1 ((hm q.1) ▸ mem_sentBy.2 ⟨q, hq, rfl, rfl⟩)
  have hd' : ∀ q ∈ qs', ∀ n ∈ unordered, ¬ ∃ os, Calls q.2.2 n os := by
    intro q hq
    obtain ⟨p, hp, -, e⟩ := corr q hq
    rw [← e]; exact hd p hp
  have hn : ∀ q ∈ qs, ∀ sp k, Names sp q.2.2 k → KeyOf q.1 qs sp k := fun q hq sp k hk => ⟨q, hq, rfl, hk⟩
  have hn' : ∀ q ∈ qs', ∀ sp k, Names sp q.2.2 k → KeyOf q.1 qs sp k := by
    intro q hq sp k hk
    obtain ⟨p, hp, e1, e2⟩ := corr q hq
    exact ⟨p, hp, e1, e2 ▸ hk⟩
  have hw : ∀ q ∈ qs, ∀ i, q.1 ≠ i → ∀ sp k, Writes sp q.2.2 k → ¬ KeyOf i qs sp k := by
    rintro q hq i hi sp k hw ⟨p, hp, rfl, hk⟩
    exact hsep q hq p hp hi sp k hw hk
  have hw' : ∀ q ∈ qs', ∀ i, q.1 ≠ i → ∀ sp k, Writes sp q.2.2 k → ¬ KeyOf i qs sp k := by
    rintro q hq i hi sp k hwr
    obtain ⟨p, hp, e1, e2⟩ := corr q hq
    exact hw p hp i (e1 ▸ hi) sp k (e2 ▸ hwr)
  have fairBy : ∀ i, ∀ q ∈ sentBy i qs', q.1.ord.Fair := by
    intro i q hq
    obtain ⟨p, hp, rfl⟩ := List.mem_map.1 hq
    exact hf' p (List.mem_filter.1 hp).1
  have solo := fun i => serve_alone (P := KeyOf i qs) (i := i) (ms := sentBy i qs') h h .refl hf (fun q hq hi sp k hk => hi ▸ hn q hq sp k hk)
    (fun q hq hi => hw q hq i hi) (fun q hq _ => hd q hq) (fairBy i) (hm i).symm hs
  obtain ⟨st₂, rs', hs'⟩ := serve_survives (P := fun i => KeyOf i qs) (qs := qs') (s := fun _ => st) (b := fun _ => a) h (fun _ => h)
    (fun _ => .refl) hf' hn' hw' hd' (fun i => by obtain ⟨s', rs', -, -, g, -⟩ := solo i; exact ⟨s', rs', g⟩)
  have solo' := fun i => serve_alone (P := KeyOf i qs) (i := i) (ms := sentBy i qs') h h .refl hf' (fun q hq hi sp k hk => hi ▸ hn' q hq sp k hk)
    (fun q hq hi => hw' q hq i hi) (fun q hq _ => hd' q hq) (fairBy i) rfl hs'
  obtain ⟨a₁, ha₁, u₁⟩ := serve_unnamed h hf hs
  obtain ⟨a₂, ha₂, u₂⟩ := serve_unnamed h hf' hs'
  have agree : ∀ i, List.Forall₂ SameReply (toldTo i qs rs) (toldTo i qs' rs') ∧ AgreeOn (KeyOf i qs) a₁ a₂ := by
    intro i
    obtain ⟨s, rs₁, a', b, g1, g2, g3, g4, g5⟩ := solo i
    obtain ⟨s', rs₂, a'', b', g1', g2', g3', g4', g5'⟩ := solo' i
    rw [g1] at g1'; cases g1'
    cases abs_unique g3 ha₁; cases abs_unique g3' ha₂; cases abs_unique g4 g4'
    refine ⟨?_, g5.trans g5'.symm⟩
    have key : ∀ {xs ys zs : List Resp}, List.Forall₂ SameReply xs ys → List.Forall₂ SameReply zs ys → List.Forall₂ SameReply xs zs := by
      intro xs ys zs h1 h2
      induction h1 generalizing zs with
      | nil => cases h2; exact .nil
      | cons h1 _ ih => cases h2 with
        | cons h2 h3 => exact .cons (h1.trans h2.symm) (ih h3)
    exact key g2 g2'
  have keys : ∀ i sp k, KeyOf i qs' sp k → KeyOf i qs sp k := by
    rintro i sp k ⟨q, hq, rfl, hk⟩; exact hn' q hq sp k hk
  have all : a₁ = a₂ := by
    have pick : ∀ sp k, (∃ i, KeyOf i qs sp k) ∨ ((∀ i, ¬ KeyOf i qs sp k) ∧ ∀ i, ¬ KeyOf i qs' sp k) := by
      intro sp k
      by_cases hk : ∃ i, KeyOf i qs sp k
      · exact .inl hk
      · exact .inr ⟨fun i hi => hk ⟨i, hi⟩, fun i hi => hk ⟨i, keys i sp k hi⟩⟩
    obtain ⟨x1, x2, x3, x4⟩ := a₁
    obtain ⟨y1, y2, y3, y4⟩ := a₂
    congr 1 <;> funext k
    · rcases pick .str k with ⟨i, hi⟩ | ⟨n, n'⟩
      · exact (agree i).2.strs k hi
      · exact (u₁.strs k n).trans (u₂.strs k n').symm
    · rcases pick .list k with ⟨i, hi⟩ | ⟨n, n'⟩
      · exact (agree i).2.lists k hi
      · exact (u₁.lists k n).trans (u₂.lists k n').symm
    · rcases pick .hash k with ⟨i, hi⟩ | ⟨n, n'⟩
      · exact (agree i).2.hashes k hi
      · exact (u₁.hashes k n).trans (u₂.hashes k n').symm
    · rcases pick .set k with ⟨i, hi⟩ | ⟨n, n'⟩
      · exact (agree i).2.sets k hi
      · exact (u₁.sets k n).trans (u₂.sets k n').symm
  exact ⟨st₂, rs', hs', fun i => (agree i).1, a₁, ha₁, all ▸ ha₂⟩

/-- C57 for the running server: however requests and replies overlap. `qs` lists the executed requests with the connection that sent each. If
no connection writes to a key another one mentions, each connection's replies are those of a server that starts with the same contents and executes its requests
only, in the order in which they were executed, and its keys hold what they would hold there. -/
theorem C57_server {st : State} {a0 : DB} (h0 : Abs st a0) {tr : List Pipe.Ev} {s : Pipe.Sys} (h : Exec Pipe.Step (Pipe.new st) tr s) (ho : ∀ x ∈ executedOf tr, x.2.1.ord.Fair) :
    ∃ qs : List Sent, List.Forall₂ (fun x q => q.2.1 = x.2.1 ∧ ∃ o, (x.1, q.1, o) ∈ requestsOf tr ∧ ArrayOf o q.2.2) (executedOf tr) qs ∧
      (Separate qs → ∀ c, ∃ a b, Abs s.db a ∧
        Trace a0 ((sentBy c qs).map Prod.snd) (toldTo c qs ((executedOf tr).map fun x => x.2.2)) b ∧ AgreeOn (KeyOf c qs) a b) := by
  suffices ∃ qs : List Sent, List.Forall₂ (fun x q => q.2.1 = x.2.1 ∧ ∃ o, (x.1, q.1, o) ∈ requestsOf tr ∧ ArrayOf o q.2.2) (executedOf tr) qs ∧
      serve st (qs.map Prod.snd) = .ok (s.db, (executedOf tr).map fun x => x.2.2) by
    obtain ⟨qs, h1, h2⟩ := this
    refine ⟨qs, h1, fun hsep c => C57_isolation h0 ?_ hsep h2 c⟩
    intro q hq
    obtain ⟨i, hi, rfl⟩ := List.getElem_of_mem hq
    have hi' : i < (executedOf tr).length := by rw [h1.length_eq]; exact hi
    have := (List.forall₂_iff_get.1 h1).2 i hi' hi
    simp only [List.get_eq_getElem] at this
    rw [this.1]
    exact ho _ (List.getElem_mem _)
  clear ho
  refine Exec.inv (P := fun tr s => ∃ qs : List Sent, List.Forall₂ (fun x q => q.2.1 = x.2.1 ∧ ∃ o, (x.1, q.1, o) ∈ requestsOf tr ∧ ArrayOf o q.2.2)
    (executedOf tr) qs ∧ serve st (qs.map Prod.snd) = .ok (s.db, (executedOf tr).map fun x => x.2.2)) ⟨[], .nil, rfl⟩ ?_ h
  rintro tr s l s' hex ⟨qs, h1, h2⟩ hst
  have h1' : List.Forall₂ (fun x (q : Sent) => q.2.1 = x.2.1 ∧ ∃ o, (x.1, q.1, o) ∈ requestsOf (tr ++ [l]) ∧ ArrayOf o q.2.2) (executedOf tr) qs :=
    h1.imp fun x q hx => ⟨hx.1, by
      obtain ⟨o, g1, g2⟩ := hx.2
      exact ⟨o, by simp [requestsOf_append, g1], g2⟩⟩
  cases hst with
  | execute n m id objs env db r hc he hp hh =>
    obtain ⟨c, id', o, g1, g2, rfl⟩ := (pipeInv hex).req n m (by simp [he])
    obtain ⟨rfl, g3⟩ := parseRequest_some hp
    refine ⟨qs ++ [(c, env, objs)], ?_, ?_⟩
    · simp only [executedOf_append, executedOf]
      exact List.rel_append h1' (.cons ⟨rfl, o, by simp [requestsOf_append, g1], asArray_arrayOf g3⟩ .nil)
    · rw [List.map_append, serve_append h2]
      simp [serve, hh, executedOf_append, executedOf]
  | _ => exact ⟨qs, by simpa only [executedOf_append, executedOf, List.append_nil] using h1',
      by simpa only [executedOf_append, executedOf, List.append_nil] using h2⟩

/-! ### An example -/

theorem calls_req {n name : Bytes} {args : List Bytes} {os : List Resp} (h : Calls (req (n :: args)) name os) :
    name = toLower n ∧ os = req args := by
  obtain ⟨o, m, e, ht, hf⟩ := h
  cases e; cases ht
  exact ⟨(folds_toLower hf).symm, rfl⟩

/-- The keys of a request made of bulk strings, other than MSET. -/
def keysOf (sp : Space) (n : Bytes) (args : List Bytes) : List Bytes :=
  if toLower n ∈ oneKey sp then args.take 1 else if toLower n ∈ manyKeys sp then args else []

theorem names_req {sp : Space} {n k : Bytes} {args : List Bytes} (hm : toLower n ≠ b!"mset") (h : Names sp (req (n :: args)) k) :
    k ∈ keysOf sp n args := by
  unfold keysOf
  rcases h with ⟨name, hn, o, os, hc, ht⟩ | ⟨name, hn, o, os, hc, ho, ht⟩ | ⟨rfl, os, i, o, hc, -⟩
  · obtain ⟨rfl, e⟩ := calls_req hc
    rw [if_pos hn]
    cases args with
    | nil => cases e
    | cons x xs => cases e; cases ht; simp
  · obtain ⟨rfl, rfl⟩ := calls_req hc
    split
    · rename_i h1
      exfalso
      have : ∀ sp, ∀ n ∈ manyKeys sp, n ∉ oneKey sp := by intro sp; cases sp <;> decide
      exact this sp _ hn h1
    · obtain ⟨x, hx, rfl⟩ := List.mem_map.1 ho
      cases ht; exact hx
  · exact absurd (calls_req hc).1.symm hm

/-- Two clients: one counts under `n`, the other pushes to a list that is also called `n` and reads a string of its own. -/
def mixed : List Sent :=
  [ (1, env0, req [b!"INCR", b!"n"]), (2, env0, req [b!"RPUSH", b!"n", b!"x"]), (2, env0, req [b!"GET", b!"t"])
  , (1, env0, req [b!"get", b!"n"]), (2, env0, req [b!"lpop", b!"n"]) ]

/-- The same requests in another order. -/
def mixed' : List Sent :=
  [ (2, env0, req [b!"RPUSH", b!"n", b!"x"]), (2, env0, req [b!"GET", b!"t"]), (2, env0, req [b!"lpop", b!"n"])
  , (1, env0, req [b!"INCR", b!"n"]), (1, env0, req [b!"get", b!"n"]) ]

theorem mixed_keys {sp : Space} {k : Bytes} {q : Sent} (hq : q ∈ mixed) (h : Names sp q.2.2 k) :
    (q.1 = 1 ∧ sp = .str ∧ k = b!"n") ∨ (q.1 = 2 ∧ ((sp = .list ∧ k = b!"n") ∨ (sp = .str ∧ k = b!"t"))) := by
  simp only [mixed, List.mem_cons, List.not_mem_nil, or_false] at hq
  rcases hq with rfl | rfl | rfl | rfl | rfl <;> have := names_req (by decide) h <;> revert this <;> cases sp <;>
    simp +decide [keysOf, toLower] <;> grind

theorem mixed_separate : Separate mixed := by
  intro p hp q hq hne sp k hw hn
  have h1 := mixed_keys hp (writes_names hw)
  have h2 := mixed_keys hq hn
  revert h1 h2 hne
  clear hp hq hw hn
  rintro hne (⟨h1, rfl, rfl⟩ | ⟨h1, ⟨rfl, rfl⟩ | ⟨rfl, rfl⟩⟩) (⟨h2, h3⟩ | ⟨h2, h3⟩) <;> simp_all (config := {decide := true})

theorem mixed_ordered : ∀ q ∈ mixed, ∀ n ∈ unordered, ¬ ∃ os, Calls q.2.2 n os := by
  intro q hq
  simp only [mixed, List.mem_cons, List.not_mem_nil, or_false] at hq
  rcases hq with rfl | rfl | rfl | rfl | rfl <;> rintro n hn ⟨os, hc⟩ <;> obtain ⟨rfl, -⟩ := calls_req hc <;> revert hn <;> decide

/-- The hypotheses of `C57_isolation`, `C57_alone` and `C58_any_order` are met. -/
example : Separate mixed ∧ (∀ q ∈ mixed, ∀ n ∈ unordered, ¬ ∃ os, Calls q.2.2 n os) ∧
    (∀ i, (sentBy i mixed).map Prod.snd = (sentBy i mixed').map Prod.snd) := by
  refine ⟨mixed_separate, mixed_ordered, fun i => ?_⟩
  by_cases h1 : i = 1
  · subst h1; rfl
  · by_cases h2 : i = 2
    · subst h2; rfl
    · simp [sentBy, mixed, mixed', Ne.symm h1, Ne.symm h2]

/-- The hypotheses of `C57_local` are met by databases that differ elsewhere. -/
example : AgreeOn (fun sp k => Names sp (req [b!"GET", b!"n"]) k) sampleDB (sampleDB.setStr b!"t" b!"bye") := by
  refine ⟨fun k hk => ?_, fun _ _ => rfl, fun _ _ => rfl, fun _ _ => rfl⟩
  have := names_req (by decide) hk
  revert this
  simp +decide [keysOf, toLower]
  rintro rfl
  rfl

/-- A run with two connections, of which one sets a string and the other pushes to a list of the same name. -/
example : ∃ tr s, Exec Pipe.Step (Pipe.new State.empty) tr s ∧ (∀ x ∈ executedOf tr, x.2.1.ord.Fair) ∧
    requestsOf tr = [(0, 7, .array (req [b!"SET", b!"n", b!"1"])), (1, 8, .array (req [b!"RPUSH", b!"n", b!"x"]))] ∧
    executedOf tr = [(1, env0, .int 1), (0, env0, .simple b!"OK")] :=
  ⟨[.connected 7, .connected 8, .read 7 0 (.array (req [b!"SET", b!"n", b!"1"])), .read 8 1 (.array (req [b!"RPUSH", b!"n", b!"x"])), .taken 1,
    .executed 1 env0 (.int 1), .taken 0, .executed 0 env0 (.simple b!"OK")], _,
    .cons (.connect 7 b!"id" rfl rfl (fun _ => by simp [Pipe.new])) (.cons (.connect 8 b!"id2" rfl rfl (fun _ => by simp only [Pipe.new, Fut.upd]; grind))
    (.cons (.read 7 b!"id" _ rfl rfl) (.cons (.read 8 b!"id2" _ rfl rfl)
    (.cons (.take 1 _ [] _ rfl rfl rfl) (.cons (.execute 1 _ b!"id2" (req [b!"RPUSH", b!"n", b!"x"]) env0 _ (.int 1) rfl rfl rfl rfl)
    (.cons (.take 0 _ [] [] rfl rfl rfl) (.one (.execute 0 _ b!"id" (req [b!"SET", b!"n", b!"1"]) env0 _ (.simple b!"OK") rfl rfl rfl rfl)))))))),
    by simp only [executedOf, List.forall_mem_cons]; exact ⟨env0_fair, env0_fair, by simp⟩, rfl, rfl⟩

end Verif.Props
