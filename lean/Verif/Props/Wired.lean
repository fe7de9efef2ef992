import Verif.Spec.Wired
import Verif.Props.Topic
import Verif.Props.DataChannel

/-! # C79 – from `Publish` to `Receive` -/

namespace Verif.Props

open Spec Wired
open Fut (upd)

variable {E : Type}

theorem onTopic_append (t u : List (Wired.Ev E)) : onTopic (t ++ u) = onTopic t ++ onTopic u := by
  induction t with
  | nil => rfl
  | cons a t ih => cases a <;> simp [onTopic, ih]

theorem onChan_append (id : Nat) (t u : List (Wired.Ev E)) : onChan id (t ++ u) = onChan id t ++ onChan id u := by
  induction t with
  | nil => rfl
  | cons a t ih => cases a <;> simp [onChan, ih] <;> split <;> simp

theorem acceptedAt_append (id : Nat) (t u : List Topic.Ev) : acceptedAt id (t ++ u) = acceptedAt id t ++ acceptedAt id u := by
  induction t with
  | nil => rfl
  | cons a t ih =>
    cases a
    case own d x =>
      cases x
      case tried n i r => cases r <;> simp [acceptedAt, ih]; split <;> simp
      all_goals simp [acceptedAt, ih]
    all_goals simp [acceptedAt, ih]

theorem mem_acceptedAt {id d : Nat} {tr : List Topic.Ev} : d ∈ acceptedAt id tr ↔ ∃ n, (n, id) ∈ acceptedBy (runOf d tr) := by
  induction tr with
  | nil => simp [acceptedAt, runOf, acceptedBy]
  | cons a t ih =>
    cases a
    case own d' x =>
      cases x
      case tried n i r =>
        cases r <;> simp only [acceptedAt, runOf] <;> by_cases e : d' = d <;> simp [e, acceptedBy, ih]
        · by_cases e' : i = id
          · simp [e']
          · simp [e', ih, Ne.symm e']
        · by_cases e' : i = id
          · simp [e', ih, Ne.symm e]
          · simp [e', ih]
      all_goals simp only [acceptedAt, runOf]; by_cases e : d' = d <;> simp [e, acceptedBy, ih]
    all_goals simp [acceptedAt, runOf, ih]

/-- A subscription has one name, and only a subscription made under the name accepts. -/
theorem named {tr : List Topic.Ev} {s : Topic.Sys} (h : Exec Topic.Step Topic.new tr s) :
    (∀ n n' id, .subscribed n id ∈ tr → .subscribed n' id ∈ tr → n = n') ∧ ∀ d n id, (n, id) ∈ acceptedBy (runOf d tr) → .subscribed n id ∈ tr := by
  refine h.inv (P := fun tr _ => (∀ n n' id, .subscribed n id ∈ tr → .subscribed n' id ∈ tr → n = n') ∧
    ∀ d n id, (n, id) ∈ acceptedBy (runOf d tr) → .subscribed n id ∈ tr) (by simp [runOf, acceptedBy]) ?_
  intro tr s l s' he ⟨h1, h2⟩ hs
  have inv := topicInv he
  refine ⟨?_, ?_⟩
  · cases hs
    case subscribe name =>
      have := inv.fresh
      intro n n' id a b
      simp only [List.mem_append, List.mem_singleton, Topic.Ev.subscribed.injEq] at a b
      rcases a with a | ⟨rfl, rfl⟩ <;> rcases b with b | ⟨rfl, hb⟩
      · exact h1 _ _ _ a b
      · have := inv.fresh _ _ a; omega
      · have := inv.fresh _ _ b; omega
      · rfl
    all_goals simpa using h1
  · intro d n id hm
    rw [runOf_append, acceptedBy_append, List.mem_append] at hm
    rcases hm with hm | hm
    · simp [h2 d n id hm]
    · cases hs
      case own d' x x' e hd hst =>
        simp only [runOf] at hm
        split at hm
        · cases hst
          case sent name i hp =>
            simp only [acceptedBy, List.mem_singleton, Prod.mk.injEq] at hm
            obtain ⟨rfl, rfl⟩ := hm
            simp [(inv.run _ _ hd).sending _ _ hp]
          all_goals simp [acceptedBy] at hm
        · simp [acceptedBy] at hm
      all_goals simp [runOf, acceptedBy] at hm

/-- A publish is accepted at most once by a subscription. -/
theorem acceptedAt_nodup {tr : List Topic.Ev} {s : Topic.Sys} (h : Exec Topic.Step Topic.new tr s) (id : Nat) : (acceptedAt id tr).Nodup := by
  refine h.inv (P := fun tr _ => (acceptedAt id tr).Nodup) (by simp [acceptedAt]) ?_
  intro tr s l s' he ih hs
  rw [acceptedAt_append]
  cases hs
  case own d x x' e hd hst =>
    cases hst
    case sent name i hp =>
      simp only [acceptedAt]
      split
      · rename_i ei
        subst ei
        refine List.nodup_append.2 ⟨ih, by simp, ?_⟩
        rintro a ha b hb rfl
        simp only [List.mem_singleton] at hb
        subst hb
        obtain ⟨n, hn⟩ := mem_acceptedAt.1 ha
        have h1 := (named he).2 _ _ _ hn
        have h2 := ((topicInv he).run _ _ hd).sending _ _ hp
        obtain rfl := (named he).1 _ _ _ h1 h2
        obtain ⟨p, g1, -, g3⟩ := ((topicInv he).dist _ _ hd).names _ _ hn
        exact g3 i (g1.symm.trans hp)
      · simpa using ih
    all_goals simpa [acceptedAt] using ih
  all_goals simpa [acceptedAt] using ih

/-- What holds in every reachable state. -/
structure WiredInv (tr : List (Wired.Ev E)) (s : Wired.Sys E) : Prop where
  topic : Exec Topic.Step Topic.new (onTopic tr) s.topic
  chan : ∀ n id size, .subscribed n id size ∈ tr → Exec DataChan.Step (DataChan.new (Mail E) size) (onChan id tr) (s.chans id)
  fresh : ∀ id, s.topic.made ≤ id → onChan id tr = []
  made : ∀ n id, .subscribed n id ∈ onTopic tr → ∃ size, .subscribed n id size ∈ tr
  event : ∀ d e, s.event d = some e → .publish d e ∈ tr
  unborn : ∀ d, s.topic.dists d = none → s.event d = none
  sender : ∀ n id size d m, .subscribed n id size ∈ tr → (s.chans id).senders d = some m → m.1 = d ∧ s.event d = some m.2
  sent : ∀ id, (sentOf (onChan id tr)).map Prod.fst = acceptedAt id (onTopic tr)
  origin : ∀ id d e, (d, e) ∈ sentOf (onChan id tr) → .publish d e ∈ tr

/-- A goroutine whose `Send` returns was sending. -/
theorem tried_inv {t t' : Topic.Sys} {d id : Nat} {n : Bytes} {r : Topic.Status} (h : Topic.Step t (.own d (.tried n id r)) t') :
    ∃ x, t.dists d = some x ∧ x.snd n = .sending id := by
  cases h with
  | own _ x _ _ hd hst => cases hst <;> exact ⟨x, hd, by assumption⟩

theorem made_mono {t t' : Topic.Sys} {x : Topic.Ev} (h : Topic.Step t x t') : t.made ≤ t'.made := by cases h <;> simp

theorem dists_mono {t t' : Topic.Sys} {x : Topic.Ev} {d : Nat} (h : Topic.Step t x t') (hd : t'.dists d = none) : t.dists d = none := by
  cases h <;> simp only [Option.map_eq_none_iff] at hd <;> grind [upd]

theorem sender_sub {c c' : DataChan.Sys (Mail E)} {y : DataChan.Ev (Mail E)} (h : DataChan.Step c y c') (hy : ∀ i e, y ≠ .sendCall i e) (d : Nat)
    (m : Mail E) (hm : c'.senders d = some m) : c.senders d = some m := by
  cases h <;> grind [upd]

/-- Neither a new subscription nor a new publish: `ys` is what happens on channel `id`, `xs` what happens on the topic. -/
theorem wiredInv_aux {tr : List (Wired.Ev E)} {s s' : Wired.Sys E} {l : Wired.Ev E} (ih : WiredInv tr s) (id : Nat) (xs : List Topic.Ev)
    (ys : List (DataChan.Ev (Mail E))) (hid : ys ≠ [] → id < s.topic.made)
    (ht : onTopic [l] = xs) (hc : ∀ i, onChan i [l] = if i = id then ys else [])
    (hl : ∀ n i z, l ≠ .subscribed n i z) (hxs : ∀ n i, .subscribed n i ∉ xs)
    (h1 : Exec Topic.Step s.topic xs s'.topic) (h2 : Exec DataChan.Step (s.chans id) ys (s'.chans id))
    (h3 : ∀ i, i ≠ id → s'.chans i = s.chans i) (h4 : s'.event = s.event) (h5 : s.topic.made ≤ s'.topic.made)
    (h6 : ∀ d, s'.topic.dists d = none → s.topic.dists d = none)
    (h7 : ∀ d m, (s'.chans id).senders d = some m → (s.chans id).senders d = some m ∨ m.1 = d ∧ s.event d = some m.2)
    (h8 : (sentOf ys).map Prod.fst = acceptedAt id xs) (h9 : ∀ i, i ≠ id → acceptedAt i xs = [])
    (h10 : ∀ d e, (d, e) ∈ sentOf ys → s.event d = some e) : WiredInv (tr ++ [l]) s' := by
  have hsub : ∀ n i z, .subscribed n i z ∈ tr ++ [l] → .subscribed n i z ∈ tr := by
    intro n i z hm
    rcases List.mem_append.1 hm with hm | hm
    · exact hm
    · exact absurd (List.mem_singleton.1 hm).symm (hl n i z)
  refine ⟨?_, ?_, ?_, ?_, ?_, ?_, ?_, ?_, ?_⟩
  · rw [onTopic_append, ht]; exact ih.topic.append h1
  · intro n i z hm
    have := ih.chan n i z (hsub n i z hm)
    rw [onChan_append, hc]
    by_cases e : i = id
    · subst e; rw [if_pos rfl]; exact this.append h2
    · rw [if_neg e, List.append_nil, h3 i e]; exact this
  · intro i hi
    rw [onChan_append, hc, ih.fresh i (by omega)]
    by_cases e : i = id
    · subst e
      by_cases ey : ys = []
      · simp [ey]
      · have := hid ey; omega
    · simp [e]
  · intro n i hm
    rw [onTopic_append, ht] at hm
    rcases List.mem_append.1 hm with hm | hm
    · obtain ⟨z, hz⟩ := ih.made n i hm
      exact ⟨z, by simp [hz]⟩
    · exact absurd hm (hxs n i)
  · intro d e hd; rw [h4] at hd; simp [ih.event d e hd]
  · intro d hd; rw [h4]; exact ih.unborn d (h6 d hd)
  · intro n i z d m hm hs
    rw [h4]
    by_cases e : i = id
    · subst e
      rcases h7 d m hs with h | h
      · exact ih.sender n i z d m (hsub _ _ _ hm) h
      · exact h
    · rw [h3 i e] at hs; exact ih.sender n i z d m (hsub _ _ _ hm) hs
  · intro i
    rw [onTopic_append, onChan_append, hc, ht, acceptedAt_append, sentOf_append, List.map_append, ih.sent]
    by_cases e : i = id
    · subst e; simp [h8]
    · simp [e, h9 i e, sentOf]
  · intro i d e hm
    rw [onChan_append, hc, sentOf_append, List.mem_append] at hm
    rcases hm with hm | hm
    · simp [ih.origin i d e hm]
    · by_cases ei : i = id
      · rw [if_pos ei] at hm
        simp [ih.event d e (h10 d e hm)]
      · simp [ei, sentOf] at hm

theorem wiredInv {tr : List (Wired.Ev E)} {s : Wired.Sys E} (h : Exec Wired.Step (Wired.new E) tr s) : WiredInv tr s := by
  refine h.inv (P := WiredInv) ?_ ?_
  · exact ⟨.nil, by simp, by simp [onChan], by simp [onTopic], by simp [Wired.new], by simp [Wired.new], by simp, by simp [onChan, onTopic, sentOf, acceptedAt], by simp [onChan, sentOf]⟩
  · intro tr s l s' _ ih hs
    have inv := topicInv ih.topic
    have hsend : ∀ d x n id, s.topic.dists d = some x → x.snd n = .sending id → id < s.topic.made ∧ ∃ z, .subscribed n id z ∈ tr := by
      intro d x n id h1 h2
      have := (inv.run d x h1).sending n id h2
      exact ⟨inv.fresh n id this, ih.made n id this⟩
    cases hs with
    | subscribe name id size t ht =>
      have hid : id = s.topic.made := by cases ht; rfl
      have hm : t.made = s.topic.made + 1 := by cases ht; rfl
      have hold : ∀ n z, .subscribed n id z ∉ tr := by
        intro n z hm
        have : .subscribed n id ∈ onTopic tr := by
          obtain ⟨a, b, rfl⟩ := List.append_of_mem hm
          simp [onTopic_append, onTopic]
        have := inv.fresh _ _ this
        omega
      have hd : ∀ d, t.dists d = none → s.topic.dists d = none := fun d => dists_mono ht
      refine ⟨?_, ?_, ?_, ?_, ?_, ?_, ?_, ?_, ?_⟩
      · rw [onTopic_append]; exact .snoc ih.topic ht
      · intro n i z hm
        rw [onChan_append]
        simp only [onChan, List.append_nil]
        rcases List.mem_append.1 hm with hm' | hm
        · by_cases e : i = id
          · subst e; exact absurd hm' (hold n z)
          · simpa [upd, e] using ih.chan n i z hm'
        · simp only [List.mem_singleton, Wired.Ev.subscribed.injEq] at hm
          obtain ⟨rfl, rfl, rfl⟩ := hm
          rw [ih.fresh i (by omega)]
          simpa [upd] using Exec.nil
      · intro i hi
        simp only [hm] at hi
        simp [onChan_append, onChan, ih.fresh i (by omega)]
      · intro n i hm
        rw [onTopic_append] at hm
        rcases List.mem_append.1 hm with hm | hm
        · obtain ⟨z, hz⟩ := ih.made n i hm
          exact ⟨z, by simp [hz]⟩
        · simp only [onTopic, List.mem_singleton, Topic.Ev.subscribed.injEq] at hm
          exact ⟨size, by simp [hm]⟩
      · intro d e hd; simp [ih.event d e hd]
      · intro d hd'; exact ih.unborn d (hd d hd')
      · intro n i z d m hm hs
        simp only [upd] at hs
        split at hs
        · simp [DataChan.new] at hs
        · rename_i ne
          rcases List.mem_append.1 hm with hm | hm
          · exact ih.sender n i z d m hm hs
          · simp only [List.mem_singleton, Wired.Ev.subscribed.injEq] at hm
            exact absurd hm.2.1 ne
      · intro i; simp [onTopic_append, onChan_append, onTopic, onChan, acceptedAt_append, acceptedAt, ih.sent]
      · intro i d e hm
        simp only [onChan_append, onChan, List.append_nil] at hm
        simp [ih.origin i d e hm]
    | publish d e t ht =>
      have hd0 : s.topic.dists d = none := by cases ht; assumption
      have hm : t.made = s.topic.made := by cases ht; rfl
      have he := ih.unborn d hd0
      have hd : ∀ d', t.dists d' = none → s.topic.dists d' = none := fun d' => dists_mono ht
      have hdd : t.dists d ≠ none := by cases ht; simp [upd]
      refine ⟨?_, ?_, ?_, ?_, ?_, ?_, ?_, ?_, ?_⟩
      · rw [onTopic_append]; exact .snoc ih.topic ht
      · intro n i z hm; simpa [onChan_append, onChan] using ih.chan n i z (by simpa using hm)
      · intro i hi
        simp only [hm] at hi
        simp [onChan_append, onChan, ih.fresh i hi]
      · intro n i hm
        simp only [onTopic_append, onTopic, List.mem_append, List.mem_singleton, reduceCtorEq, or_false] at hm
        obtain ⟨z, hz⟩ := ih.made n i hm
        exact ⟨z, by simp [hz]⟩
      · intro d' e' hd'
        simp only [upd] at hd'
        split at hd'
        · cases hd'; rename_i e2; simp [e2]
        · simp [ih.event d' e' hd']
      · intro d' hd'
        simp only [upd]
        split
        · rename_i e2; subst e2; exact absurd hd' hdd
        · exact ih.unborn d' (hd d' hd')
      · intro n i z d' m hm hs
        obtain ⟨g1, g2⟩ := ih.sender n i z d' m (by simpa using hm) hs
        refine ⟨g1, ?_⟩
        simp only [upd]
        split
        · rename_i e2; rw [e2, he] at g2; cases g2
        · exact g2
      · intro i; simp [onTopic_append, onChan_append, onTopic, onChan, acceptedAt_append, acceptedAt, ih.sent]
      · intro i d' e' hm
        simp only [onChan_append, onChan, List.append_nil] at hm
        simp [ih.origin i d' e' hm]
    | distribute d x t hx ht =>
      refine wiredInv_aux ih 0 [.own d x] [] (by simp) rfl (by simp [onChan]) (by simp) (by simp) (.one ht) .nil (by simp) rfl (made_mono ht)
        (fun _ => dists_mono ht) (fun _ _ h => .inl h) ?_ ?_ (by simp [sentOf])
      · cases x <;> simp [sentOf, acceptedAt] at *
      · intro i _; cases x <;> simp [acceptedAt] at *
    | delete d name t ht =>
      exact wiredInv_aux ih 0 [.deleted d name] [] (by simp) rfl (by simp [onChan]) (by simp) (by simp) (.one ht) .nil (by simp) rfl (made_mono ht)
        (fun _ => dists_mono ht) (fun _ _ h => .inl h) (by simp [sentOf, acceptedAt]) (by simp [acceptedAt]) (by simp [sentOf])
    | call d name id e x c hd hn he hc =>
      refine wiredInv_aux ih id [] [.sendCall d (d, e)] (fun _ => (hsend _ _ _ _ hd hn).1) rfl (by simp [onChan, eq_comm]) (by simp) (by simp) .nil
        (by simpa [upd] using Exec.one hc) (by intro i hi; simp [upd, hi]) rfl (Nat.le_refl _) (fun _ h => h) ?_ (by simp [sentOf, acceptedAt])
        (by simp [acceptedAt]) (by simp [sentOf])
      intro d' m hm
      cases hc
      simp only [upd, if_true] at hm
      split at hm
      · cases hm; rename_i e2; exact .inr ⟨e2.symm, by simpa [e2] using he⟩
      · exact .inl hm
    | sent d name id m t c ht hc =>
      obtain ⟨x, hd, hn⟩ := tried_inv ht
      obtain ⟨hlt, z, hz⟩ := hsend _ _ _ _ hd hn
      have hm : (s.chans id).senders d = some m := by cases hc; assumption
      obtain ⟨g1, g2⟩ := ih.sender _ _ _ _ _ hz hm
      refine wiredInv_aux ih id [.own d (.tried name id .success)] [.sent d m] (fun _ => hlt) rfl (by simp [onChan, eq_comm]) (by simp) (by simp)
        (.one ht) (by simpa [upd] using Exec.one hc) (by intro i hi; simp [upd, hi]) rfl (made_mono ht) (fun _ => dists_mono ht)
        (fun d' m' h => .inl (sender_sub hc (by simp) d' m' (by simpa [upd] using h))) (by simp [sentOf, acceptedAt, g1])
        (by intro i hi; simp [acceptedAt, Ne.symm hi]) ?_
      intro d' e' hm'
      simp only [sentOf, List.mem_singleton] at hm'
      subst hm'
      simpa [← g1] using g2
    | handed d name id m j t c ht hc =>
      obtain ⟨x, hd, hn⟩ := tried_inv ht
      obtain ⟨hlt, z, hz⟩ := hsend _ _ _ _ hd hn
      have hm : (s.chans id).senders d = some m := by cases hc; assumption
      obtain ⟨g1, g2⟩ := ih.sender _ _ _ _ _ hz hm
      refine wiredInv_aux ih id [.own d (.tried name id .success)] [.handed d m j] (fun _ => hlt) rfl (by simp [onChan, eq_comm]) (by simp) (by simp)
        (.one ht) (by simpa [upd] using Exec.one hc) (by intro i hi; simp [upd, hi]) rfl (made_mono ht) (fun _ => dists_mono ht)
        (fun d' m' h => .inl (sender_sub hc (by simp) d' m' (by simpa [upd] using h))) (by simp [sentOf, acceptedAt, g1])
        (by intro i hi; simp [acceptedAt, Ne.symm hi]) ?_
      intro d' e' hm'
      simp only [sentOf, List.mem_singleton] at hm'
      subst hm'
      simpa [← g1] using g2
    | refused d name id m t c ht hc =>
      obtain ⟨x, hd, hn⟩ := tried_inv ht
      exact wiredInv_aux ih id [.own d (.tried name id .closed)] [.sendClosed d m] (fun _ => (hsend _ _ _ _ hd hn).1) rfl (by simp [onChan, eq_comm])
        (by simp) (by simp) (.one ht) (by simpa [upd] using Exec.one hc) (by intro i hi; simp [upd, hi]) rfl (made_mono ht) (fun _ => dists_mono ht)
        (fun d' m' h => .inl (sender_sub hc (by simp) d' m' (by simpa [upd] using h))) (by simp [sentOf, acceptedAt]) (by simp [acceptedAt])
        (by simp [sentOf])
    | expired d name id m t c ht hc =>
      obtain ⟨x, hd, hn⟩ := tried_inv ht
      exact wiredInv_aux ih id [.own d (.tried name id .expired)] [.expired d m] (fun _ => (hsend _ _ _ _ hd hn).1) rfl (by simp [onChan, eq_comm])
        (by simp) (by simp) (.one ht) (by simpa [upd] using Exec.one hc) (by intro i hi; simp [upd, hi]) rfl (made_mono ht) (fun _ => dists_mono ht)
        (fun d' m' h => .inl (sender_sub hc (by simp) d' m' (by simpa [upd] using h))) (by simp [sentOf, acceptedAt]) (by simp [acceptedAt])
        (by simp [sentOf])
    | close id k t c hk ht hc =>
      have hid : id < s.topic.made := by cases ht; assumption
      exact wiredInv_aux ih id [.closed id] [.closed k] (fun _ => hid) rfl (by simp [onChan, eq_comm])
        (by simp) (by simp) (.one ht) (by simpa [upd] using Exec.one hc) (by intro i hi; simp [upd, hi]) rfl (made_mono ht) (fun _ => dists_mono ht)
        (fun d' m' h => .inl (sender_sub hc (by simp) d' m' (by simpa [upd] using h))) (by simp [sentOf, acceptedAt]) (by simp [acceptedAt])
        (by simp [sentOf])
    | recvCall id j c hid hc | recvClosed id j c hid hc | received id j m c hid hc | closeWon id j c hid hc | closeLost id j c hid hj hc =>
      exact wiredInv_aux ih id [] [_] (fun _ => hid) rfl (by simp [onChan, eq_comm]; intro i; rfl)
        (by simp) (by simp) .nil (by simpa [upd] using Exec.one hc) (by intro i hi; simp [upd, hi]) rfl (Nat.le_refl _) (fun _ h => h)
        (fun d' m' h => .inl (sender_sub hc (by simp) d' m' (by simpa [upd] using h))) (by simp [sentOf, acceptedAt]) (by simp [acceptedAt])
        (by simp [sentOf])

theorem mem_onTopic {tr : List (Wired.Ev E)} : (∀ n id z, .subscribed n id z ∈ tr → .subscribed n id ∈ onTopic tr) ∧
    (∀ d e, .publish d e ∈ tr → .publish d ∈ onTopic tr) := by
  constructor
  · intro n id z hm
    obtain ⟨a, b, rfl⟩ := List.append_of_mem hm
    simp [onTopic_append, onTopic]
  · intro d e hm
    obtain ⟨a, b, rfl⟩ := List.append_of_mem hm
    simp [onTopic_append, onTopic]

/-- Every publish has its own number, so one event. -/
theorem published_once {tr : List (Wired.Ev E)} {s : Wired.Sys E} (h : Exec Wired.Step (Wired.new E) tr s) {d : Nat} {e e' : E}
    (h1 : .publish d e ∈ tr) (h2 : .publish d e' ∈ tr) : e = e' := by
  have key : ∀ d e e', .publish d e ∈ tr → .publish d e' ∈ tr → e = e' := by
    refine h.inv (P := fun tr _ => ∀ d e e', .publish d e ∈ tr → .publish d e' ∈ tr → e = e') (by simp) ?_
    intro tr s l s' he ih hs d e e' h1 h2
    cases hs
    case publish d0 e0 t ht =>
      have hd0 : s.topic.dists d0 = none := by cases ht; assumption
      have hno : ∀ e1, .publish d0 e1 ∉ tr := by
        intro e1 hm
        obtain ⟨x, hx⟩ := dist_started (wiredInv he).topic (mem_onTopic.2 _ _ hm)
        rw [hd0] at hx; cases hx
      simp only [List.mem_append, List.mem_singleton, Wired.Ev.publish.injEq] at h1 h2
      rcases h1 with h1 | ⟨rfl, rfl⟩ <;> rcases h2 with h2 | ⟨e2, rfl⟩
      · exact ih _ _ _ h1 h2
      · exact absurd (e2 ▸ h1) (hno _)
      · exact absurd h2 (hno _)
      · rfl
    all_goals
      simp only [List.mem_append, List.mem_singleton, reduceCtorEq, or_false] at h1 h2
      exact ih _ _ _ h1 h2
  exact key _ _ _ h1 h2

/-- C79: what the receiver of a subscription got, and what waits in its channel, are the publishes the subscription accepted, in the order in
which it did, each of them once and with the event that was published. -/
theorem C79_received {tr : List (Wired.Ev E)} {s : Wired.Sys E} (h : Exec Wired.Step (Wired.new E) tr s) {n : Bytes} {id : Nat} {size : Int}
    (hs : .subscribed n id size ∈ tr) :
    (got id tr ++ (s.chans id).buf).map Prod.fst = acceptedAt id (onTopic tr) ∧ ((s.chans id).buf.length : Int) ≤ max size 0 ∧
      ((got id tr ++ (s.chans id).buf).map Prod.fst).Nodup ∧ ∀ d e, (d, e) ∈ got id tr ++ (s.chans id).buf → ∀ e', .publish d e' ∈ tr ↔ e' = e := by
  have inv := wiredInv h
  obtain ⟨h1, h2⟩ := C38_fifo (inv.chan n id size hs)
  have h3 : (got id tr ++ (s.chans id).buf).map Prod.fst = acceptedAt id (onTopic tr) := by rw [got, h1, inv.sent]
  refine ⟨h3, h2, ?_, ?_⟩
  · rw [h3]; exact acceptedAt_nodup inv.topic id
  · intro d e hm e'
    rw [got, h1] at hm
    have := inv.origin id d e hm
    exact ⟨fun he => published_once h he this, fun he => he ▸ this⟩

/-- C79: a subscriber that is not yet there gets nothing. -/
theorem C79_nobody {tr : List (Wired.Ev E)} {s : Wired.Sys E} (h : Exec Wired.Step (Wired.new E) tr s) {id : Nat}
    (hs : ∀ n size, .subscribed n id size ∉ tr) : got id tr = [] := by
  have inv := wiredInv h
  suffices s.topic.made ≤ id by simp [got, inv.fresh id this, receivedOf]
  have key : ∀ i, i < s.topic.made → ∃ n size, .subscribed n i size ∈ tr := by
    refine h.inv (P := fun tr s => ∀ i, i < s.topic.made → ∃ n size, .subscribed n i size ∈ tr) (by simp [Wired.new, Topic.new]) ?_
    intro tr s l s' _ ih hst i hi
    have hold : s'.topic.made = s.topic.made → ∃ n size, .subscribed n i size ∈ tr ++ [l] := by
      intro e
      obtain ⟨n, z, hm⟩ := ih i (by omega)
      exact ⟨n, z, by simp [hm]⟩
    cases hst
    case subscribe name id size t ht =>
      cases ht
      simp only at hi
      by_cases e : i = s.topic.made
      · exact ⟨name, size, by simp [e]⟩
      · obtain ⟨n, z, hm⟩ := ih i (by omega)
        exact ⟨n, z, by simp [hm]⟩
    case publish d e t ht => cases ht; exact hold rfl
    case distribute d x t hx ht => cases ht; exact hold rfl
    case delete d n t ht => cases ht; exact hold rfl
    case sent ht hc => cases ht; exact hold rfl
    case handed ht hc => cases ht; exact hold rfl
    case refused ht hc => cases ht; exact hold rfl
    case expired ht hc => cases ht; exact hold rfl
    case close ht hc => cases ht; exact hold rfl
    all_goals exact hold rfl
  by_contra hlt
  obtain ⟨n, z, hm⟩ := key id (by omega)
  exact hs n z hm

/-- C79: the number a publish yields is the number of subscriptions that accepted its event (as an `int32`), that is, of the receivers that
got it or have it waiting in their channel. -/
theorem C79_count {tr : List (Wired.Ev E)} {s : Wired.Sys E} (h : Exec Wired.Step (Wired.new E) tr s) {d : Nat} {k : Int}
    (hk : .topic (.own d (.published k)) ∈ tr) :
    ∃ ids : List Nat, k = Proto.wrap32 ids.length ∧ ids.Nodup ∧ ∀ id, id ∈ ids ↔ ∃ e, (d, e) ∈ got id tr ++ (s.chans id).buf ∧ ∃ n size, .subscribed n id size ∈ tr := by
  have inv := wiredInv h
  have hp : .published k ∈ runOf d (onTopic tr) := by
    obtain ⟨a, b, rfl⟩ := List.append_of_mem hk
    simp [onTopic_append, onTopic, runOf_append, runOf]
  obtain ⟨h1, h2⟩ := C39_count inv.topic hp
  refine ⟨(acceptedBy (runOf d (onTopic tr))).map Prod.snd, by simpa using h1, ?_, ?_⟩
  · refine (List.nodup_map_iff_inj_on (List.Nodup.of_map _ h2)).2 ?_
    rintro ⟨n, i⟩ hm ⟨n', i'⟩ hm' (rfl : i = i')
    rw [(named inv.topic).1 n n' i ((named inv.topic).2 _ _ _ hm) ((named inv.topic).2 _ _ _ hm')]
  · intro id
    have : id ∈ (acceptedBy (runOf d (onTopic tr))).map Prod.snd ↔ d ∈ acceptedAt id (onTopic tr) := by
      rw [mem_acceptedAt]
      simp
    rw [this]
    constructor
    · intro hm
      obtain ⟨n, hn⟩ := mem_acceptedAt.1 hm
      obtain ⟨z, hz⟩ := inv.made n id ((named inv.topic).2 _ _ _ hn)
      rw [← (C79_received h hz).1] at hm
      simp only [List.mem_map, Prod.exists, exists_and_right, exists_eq_right] at hm
      obtain ⟨e, he⟩ := hm
      exact ⟨e, he, n, z, hz⟩
    · rintro ⟨e, he, n, z, hz⟩
      rw [← (C79_received h hz).1]
      exact List.mem_map.2 ⟨_, he, rfl⟩

theorem not_accepted_after {a b : List Topic.Ev} {s : Topic.Sys} {d : Nat} {k : Int} (h : Exec Topic.Step Topic.new (a ++ .own d (.published k) :: b) s)
    (id : Nat) : d ∉ acceptedAt id b := by
  have e1 : a ++ Topic.Ev.own d (.published k) :: b = (a ++ [.own d (.published k)]) ++ b := by simp
  rw [e1] at h
  obtain ⟨s1, h1, h2⟩ := h.split
  have key : Exec Topic.Step Topic.new ((a ++ [.own d (.published k)]) ++ b) s ∧ d ∉ acceptedAt id b := by
    refine h2.inv (P := fun b s => Exec Topic.Step Topic.new ((a ++ [.own d (.published k)]) ++ b) s ∧ d ∉ acceptedAt id b) ⟨by simpa using h1, by simp [acceptedAt]⟩ ?_
    intro b s l s' _ ⟨he, ih⟩ hs
    refine ⟨by rw [← List.append_assoc]; exact .snoc he hs, ?_⟩
    rw [acceptedAt_append, List.mem_append, not_or]
    refine ⟨ih, ?_⟩
    intro hm
    cases hs
    case own d' x x' e hd hst =>
      cases hst
      case sent name i hp =>
        simp only [acceptedAt] at hm
        split at hm
        · simp only [List.mem_singleton] at hm
          subst hm
          have di := (topicInv he).dist _ _ hd
          have hpub := di.published.1 ⟨k, by simp [runOf_append, runOf]⟩
          rcases di.after with hpc | hpc
          · exact hpub hpc
          · have := hpc name; rw [hp] at this; simp [Topic.SPc.active] at this
        · simp at hm
      all_goals simp [acceptedAt] at hm
    all_goals simp [acceptedAt] at hm
  exact key.2

/-- C79: events keep their order if their publisher waits: when a publish is made after an earlier one has yielded its number, no receiver gets
the earlier event after the later one. -/
theorem C79_order {a b c : List (Wired.Ev E)} {s : Wired.Sys E} {d d' : Nat} {k : Int} {e' : E}
    (h : Exec Wired.Step (Wired.new E) (a ++ .topic (.own d (.published k)) :: (b ++ .publish d' e' :: c)) s) {id : Nat} {l r : List (Mail E)} {m : E}
    (hg : got id (a ++ .topic (.own d (.published k)) :: (b ++ .publish d' e' :: c)) = l ++ (d', m) :: r) : ∀ m', (d, m') ∉ r := by
  intro m' hr
  have inv := wiredInv h
  by_cases hsub : ∃ n size, .subscribed n id size ∈ (a ++ .topic (.own d (.published k)) :: (b ++ .publish d' e' :: c))
  · obtain ⟨n, z, hz⟩ := hsub
    obtain ⟨h1, -, h3, -⟩ := C79_received h hz
    have ht := inv.topic
    simp only [onTopic_append, onTopic] at ht
    -- `d` is accepted before the second publish is made, `d'` after
    have hd : d ∉ acceptedAt id (onTopic c) := by
      have := not_accepted_after ht id
      simp only [acceptedAt_append, List.mem_append, not_or, acceptedAt] at this
      exact this.2
    have hd' : d' ∉ acceptedAt id (onTopic a ++ .own d (.published k) :: onTopic b) := by
      have e1 : onTopic a ++ Topic.Ev.own d (.published k) :: (onTopic b ++ .publish d' :: onTopic c) =
          ((onTopic a ++ Topic.Ev.own d (.published k) :: onTopic b) ++ [.publish d']) ++ onTopic c := by simp
      rw [e1] at ht
      obtain ⟨s2, g2, -⟩ := ht.split
      obtain ⟨s1, g1, g3⟩ := g2.split_snoc
      have hnone : s1.dists d' = none := by cases g3; assumption
      rw [mem_acceptedAt, (topicInv g1).none d' hnone]
      simp [acceptedBy]
    have e2 : acceptedAt id (onTopic (a ++ .topic (.own d (.published k)) :: (b ++ .publish d' e' :: c))) =
        acceptedAt id (onTopic a ++ .own d (.published k) :: onTopic b) ++ acceptedAt id (onTopic c) := by
      simp [onTopic_append, onTopic, acceptedAt_append, acceptedAt]
    rw [hg, e2] at h1
    rw [hg] at h3
    simp only [List.append_assoc, List.cons_append, List.map_append, List.map_cons] at h1 h3
    have hin : d ∈ r.map Prod.fst := List.mem_map.2 ⟨_, hr, rfl⟩
    rcases List.append_eq_append_iff.1 h1 with ⟨as, q1, q2⟩ | ⟨as, q1, q2⟩
    · rcases as with _ | ⟨x, xs⟩
      · simp only [List.nil_append] at q2
        exact hd (by rw [← q2]; simp [hin])
      · simp only [List.cons_append, List.cons.injEq] at q2
        exact hd' (by rw [q1, ← q2.1]; simp)
    · exact hd (by rw [q2]; simp [hin])
  · push Not at hsub
    rw [C79_nobody h hsub] at hg
    simp at hg

/-- C79: nothing is lost but by expiry. A subscriber whose name nobody else has used gets the event of every publish made between its
subscription and its close that has yielded its number, or has it waiting in its channel, unless its channel stayed full for the whole time
allowed. -/
theorem C79_served {b0 b1 b2 a : List (Wired.Ev E)} {s : Wired.Sys E} {name : Bytes} {id d : Nat} {size k : Int} {e : E}
    (h : Exec Wired.Step (Wired.new E) (b0 ++ .subscribed name id size :: (b1 ++ .publish d e :: (b2 ++ .topic (.own d (.published k)) :: a))) s)
    (hn : ∀ i, .subscribed name i ∉ onTopic (b0 ++ b1 ++ b2)) (hc : .closed id ∉ onTopic (b1 ++ b2)) :
    (d, e) ∈ got id (b0 ++ .subscribed name id size :: (b1 ++ .publish d e :: (b2 ++ .topic (.own d (.published k)) :: a))) ++ (s.chans id).buf ∨
      .own d (.tried name id .expired) ∈ onTopic b2 := by
  have inv := wiredInv h
  have ht := inv.topic
  simp only [onTopic_append, onTopic] at ht hn hc
  obtain ⟨r, hr⟩ := C40_served ht hn hc
  cases r with
  | expired => exact .inr hr
  | success =>
    have hz : .subscribed name id size ∈ b0 ++ .subscribed name id size :: (b1 ++ .publish d e :: (b2 ++ .topic (.own d (.published k)) :: a)) := by simp
    have hp : .publish d e ∈ b0 ++ .subscribed name id size :: (b1 ++ .publish d e :: (b2 ++ .topic (.own d (.published k)) :: a)) := by simp
    obtain ⟨h1, -, -, h4⟩ := C79_received h hz
    have hd : d ∈ acceptedAt id (onTopic (b0 ++ .subscribed name id size :: (b1 ++ .publish d e :: (b2 ++ .topic (.own d (.published k)) :: a)))) := by
      obtain ⟨p, q, hpq⟩ := List.append_of_mem hr
      simp [onTopic_append, onTopic, hpq, acceptedAt_append, acceptedAt]
    rw [← h1] at hd
    obtain ⟨⟨d', e'⟩, hm, rfl⟩ := List.mem_map.1 hd
    obtain rfl := (h4 d' e' hm e).1 hp
    exact .inl hm
  | closed =>
    exfalso
    have hb := not_closed_before ht
    obtain ⟨p, q, hpq⟩ := List.append_of_mem hr
    rw [hpq] at ht hc
    have e1 : onTopic b0 ++ Topic.Ev.subscribed name id :: (onTopic b1 ++ .publish d :: ((p ++ .own d (.tried name id .closed) :: q) ++
        .own d (.published k) :: onTopic a)) = ((onTopic b0 ++ Topic.Ev.subscribed name id :: (onTopic b1 ++ .publish d :: p)) ++
          [.own d (.tried name id .closed)]) ++ (q ++ .own d (.published k) :: onTopic a) := by simp
    rw [e1] at ht
    obtain ⟨s2, g2, -⟩ := ht.split
    obtain ⟨s1, g1, g3⟩ := g2.split_snoc
    have hcl : s1.closed id = true := by
      cases g3 with
      | own _ x _ _ hd hst => cases hst; assumption
    have := ((topicInv g1).closed id).1 hcl
    simp only [List.mem_append, List.mem_cons, reduceCtorEq, false_or] at this hc
    tauto

/-- No channel is closed twice, so nothing crashes. -/
theorem chans_up {tr : List (Wired.Ev E)} {s : Wired.Sys E} (h : Exec Wired.Step (Wired.new E) tr s) : ∀ id, (s.chans id).crashed = false := by
  refine h.inv (P := fun _ s => ∀ id, (s.chans id).crashed = false) (by simp [Wired.new, DataChan.new]) ?_
  intro tr s l s' _ ih hs id'
  have key : ∀ id c y, DataChan.Step (s.chans id) y c → y ≠ .crash → (upd s.chans id c id').crashed = false := by
    intro id c y hc hy
    simp only [upd]
    split
    · have := ih id
      cases hc <;> simp_all
    · exact ih id'
  cases hs
  case subscribe name id size t ht => simp only [upd]; split <;> simp [DataChan.new, ih]
  case call hc => exact key _ _ _ hc (by simp)
  case sent hc => exact key _ _ _ hc (by simp)
  case handed hc => exact key _ _ _ hc (by simp)
  case refused hc => exact key _ _ _ hc (by simp)
  case expired hc => exact key _ _ _ hc (by simp)
  case recvCall hc => exact key _ _ _ hc (by simp)
  case recvClosed hc => exact key _ _ _ hc (by simp)
  case received hc => exact key _ _ _ hc (by simp)
  case closeWon hc => exact key _ _ _ hc (by simp)
  case closeLost hc => exact key _ _ _ hc (by simp)
  case close hc => exact key _ _ _ hc (by simp)
  all_goals exact ih id'

theorem event_known {tr : List (Wired.Ev E)} {s : Wired.Sys E} (h : Exec Wired.Step (Wired.new E) tr s) : ∀ d e, .publish d e ∈ tr → s.event d = some e := by
  refine h.inv (P := fun tr s => ∀ d e, .publish d e ∈ tr → s.event d = some e) (by simp) ?_
  intro tr s l s' he ih hs d e hm
  cases hs
  case publish d0 e0 t ht =>
    have hd0 : s.topic.dists d0 = none := by cases ht; assumption
    simp only [List.mem_append, List.mem_singleton, Wired.Ev.publish.injEq] at hm
    rcases hm with hm | ⟨rfl, rfl⟩
    · have : d ≠ d0 := by
        rintro rfl
        obtain ⟨x, hx⟩ := dist_started (wiredInv he).topic (mem_onTopic.2 _ _ hm)
        rw [hd0] at hx; cases hx
      simp [upd, this, ih d e hm]
    · simp [upd]
  all_goals
    simp only [List.mem_append, List.mem_singleton, reduceCtorEq, or_false] at hm
    exact ih d e hm

/-- C79: a publish never waits for its receivers: as long as it has not yielded its number, one of its goroutines can do something other than
handing the event over, whatever the subscribers do or fail to do. -/
theorem C79_progress {tr : List (Wired.Ev E)} {s : Wired.Sys E} (h : Exec Wired.Step (Wired.new E) tr s) {d : Nat} {e : E} (hp : .publish d e ∈ tr)
    (hn : ∀ k, .topic (.own d (.published k)) ∉ tr) :
    ∃ l s', Wired.Step s l s' ∧ ((∃ x, l = .topic (.own d x)) ∨ (∃ id, l = .chan id (.sendCall d (d, e))) ∨
      ∃ n id, l = .both (.own d (.tried n id .expired)) id (.expired d (d, e))) := by
  have inv := wiredInv h
  have hn' : ∀ k, .published k ∉ runOf d (onTopic tr) := by
    intro k hk
    have hsrc : ∀ tr s, Exec Wired.Step (Wired.new E) tr s → .published k ∈ runOf d (onTopic tr) → .topic (.own d (.published k)) ∈ tr := by
      intro tr s h
      refine h.inv (P := fun tr _ => .published k ∈ runOf d (onTopic tr) → .topic (.own d (.published k)) ∈ tr) (by simp [onTopic, runOf]) ?_
      intro tr s l s' _ ih hs hm
      rw [onTopic_append, runOf_append, List.mem_append] at hm
      rcases hm with hm | hm
      · simp [ih hm]
      · cases hs
        case distribute d' x t hx ht =>
          simp only [onTopic, runOf] at hm
          split at hm
          · rename_i e1; subst e1
            simp only [List.mem_singleton] at hm
            simp [hm]
          · simp at hm
        all_goals
          simp only [onTopic, runOf] at hm
          try split at hm
          all_goals simp at hm
    exact hn k (hsrc tr s h hk)
  obtain ⟨ev, t, hst, hr⟩ := C39_progress inv.topic (mem_onTopic.2 _ _ hp) hn'
  by_cases htr : ∃ n id r, ev = .tried n id r
  · obtain ⟨n, id, r, rfl⟩ := htr
    obtain rfl := hr n id r rfl
    obtain ⟨x, hd, hsn⟩ := tried_inv hst
    have he := event_known h d e hp
    have hup := chans_up h id
    obtain ⟨z, hz⟩ := inv.made _ _ (((topicInv inv.topic).run d x hd).sending n id hsn)
    cases hm : (s.chans id).senders d with
    | none => exact ⟨_, _, .call d n id e x _ hd hsn he (.sendCall d (d, e) hup hm), .inr (.inl ⟨id, rfl⟩)⟩
    | some m =>
      obtain ⟨g1, g2⟩ := inv.sender _ _ _ _ _ hz hm
      rw [he] at g2
      have hme : m = (d, e) := Prod.ext g1 (by simpa using g2.symm)
      subst hme
      exact ⟨_, _, .expired d n id _ t _ hst (.expired d _ hup hm), .inr (.inr ⟨n, id, rfl⟩)⟩
  · push Not at htr
    exact ⟨_, _, .distribute d ev t htr hst, .inl ⟨ev, rfl⟩⟩

/-- A subscriber with a channel of two, and two publishes by someone who does not wait: it gets the second event first. -/
theorem C79_overtaken : ∃ tr s, Exec Wired.Step (Wired.new Bytes) (.subscribed b!"a" 0 2 :: .publish 1 b!"x" :: .publish 2 b!"y" :: tr) s ∧
    got 0 (.subscribed b!"a" 0 2 :: .publish 1 b!"x" :: .publish 2 b!"y" :: tr) = [(2, b!"y"), (1, b!"x")] ∧
      ∀ d n id, .own d (.tried n id .expired) ∉ onTopic tr := by
  refine ⟨[.topic (.own 2 .started), .topic (.own 2 (.visited b!"a" 0)), .chan 0 (.sendCall 2 (2, b!"y")),
    .both (.own 2 (.tried b!"a" 0 .success)) 0 (.sent 2 (2, b!"y")), .topic (.own 1 .started), .topic (.own 1 (.visited b!"a" 0)),
    .chan 0 (.sendCall 1 (1, b!"x")), .both (.own 1 (.tried b!"a" 0 .success)) 0 (.sent 1 (1, b!"x")), .chan 0 (.recvCall 7), .chan 0 (.received 7 (2, b!"y")),
    .chan 0 (.recvCall 7), .chan 0 (.received 7 (1, b!"x"))], ?_⟩
  exact ⟨_, .cons (.subscribe _ _ _ _ (.subscribe _)) (.cons (.publish 1 b!"x" _ (.publish 1 rfl)) (.cons (.publish 2 b!"y" _ (.publish 2 rfl))
      (.cons (.distribute 2 _ _ (by simp) (.own 2 _ _ _ rfl (.start rfl)))
      (.cons (.distribute 2 _ _ (by simp) (.own 2 _ _ _ rfl (.visit b!"a" 0 rfl (by decide) (by decide))))
      (.cons (.call 2 b!"a" 0 b!"y" _ _ rfl rfl rfl (.sendCall 2 _ rfl rfl))
      (.cons (.sent 2 b!"a" 0 _ _ _ (.own 2 _ _ _ rfl (.sent b!"a" 0 rfl)) (.sent 2 _ rfl rfl (by decide)))
      (.cons (.distribute 1 _ _ (by simp) (.own 1 _ _ _ rfl (.start rfl)))
      (.cons (.distribute 1 _ _ (by simp) (.own 1 _ _ _ rfl (.visit b!"a" 0 rfl (by decide) (by decide))))
      (.cons (.call 1 b!"a" 0 b!"x" _ _ rfl rfl rfl (.sendCall 1 _ rfl rfl))
      (.cons (.sent 1 b!"a" 0 _ _ _ (.own 1 _ _ _ rfl (.sent b!"a" 0 rfl)) (.sent 1 _ rfl rfl (by decide)))
      (.cons (.recvCall 0 7 _ (by decide) (.recvCall 7 rfl rfl rfl))
      (.cons (.received 0 7 _ _ (by decide) (.received 7 _ _ rfl rfl rfl))
      (.cons (.recvCall 0 7 _ (by decide) (.recvCall 7 rfl rfl rfl))
      (.one (.received 0 7 _ _ Nat.one_pos (.received 7 _ _ rfl rfl rfl)))))))))))))))), rfl, by simp [onTopic]⟩

/-- A publish that is awaited, and another one: the execution meets the hypotheses of `C79_order` and `C79_served`. -/
example : ∃ s, Exec Wired.Step (Wired.new Bytes) ([] ++ .subscribed b!"a" 0 2 :: ([] ++ .publish 1 b!"x" :: ([.topic (.own 1 .started),
    .topic (.own 1 (.visited b!"a" 0)), .topic (.own 1 .ranged), .chan 0 (.sendCall 1 (1, b!"x")),
    .both (.own 1 (.tried b!"a" 0 .success)) 0 (.sent 1 (1, b!"x")), .topic (.own 1 (.counted b!"a")), .topic (.own 1 (.ended b!"a"))] ++
    .topic (.own 1 (.published 1)) :: ([] ++ .publish 2 b!"y" :: [.chan 0 (.recvCall 7), .chan 0 (.received 7 (1, b!"x"))])))) s ∧
    (s.chans 0).buf = [] :=
  ⟨_, .cons (.subscribe _ _ _ _ (.subscribe _)) (.cons (.publish 1 b!"x" _ (.publish 1 rfl))
      (.cons (.distribute 1 _ _ (by simp) (.own 1 _ _ _ rfl (.start rfl)))
      (.cons (.distribute 1 _ _ (by simp) (.own 1 _ _ _ rfl (.visit b!"a" 0 rfl (by decide) (by decide))))
      (.cons (.distribute 1 _ _ (by simp) (.own 1 _ _ _ rfl (.ranged rfl (by decide))))
      (.cons (.call 1 b!"a" 0 b!"x" _ _ rfl rfl rfl (.sendCall 1 _ rfl rfl))
      (.cons (.sent 1 b!"a" 0 _ _ _ (.own 1 _ _ _ rfl (.sent b!"a" 0 rfl)) (.sent 1 _ rfl rfl (by decide)))
      (.cons (.distribute 1 _ _ (by simp) (.own 1 _ _ _ rfl (.count b!"a" rfl)))
      (.cons (.distribute 1 _ _ (by simp) (.own 1 _ _ _ rfl (.finish b!"a" rfl)))
      (.cons (.distribute 1 _ _ (by simp) (.own 1 _ _ _ rfl (.publish rfl rfl)))
      (.cons (.publish 2 b!"y" _ (.publish 2 rfl))
      (.cons (.recvCall 0 7 _ (by decide) (.recvCall 7 rfl rfl rfl))
      (.one (.received 0 7 _ _ Nat.one_pos (.received 7 _ _ rfl rfl rfl)))))))))))))), rfl⟩

end Verif.Props
