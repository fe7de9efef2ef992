import Verif.Spec.Survives
import Verif.Props.Kept
import Verif.Props.Lives
import Verif.Props.Durable

/-! # C108 – what every command keeps, outlasts restarts and a crash -/

namespace Verif.Props

open Spec

theorem packed_recorded {w : List Req} (hw : ∀ q ∈ w, q.Occurs ∧ q.Recorded) : Packed (w.map reqLog) (w.map fun q => requestLog q.stamp q.objs) := by
  rw [Packed, List.forall₂_map_left_iff, List.forall₂_map_right_iff, List.forall₂_same]
  intro q hq
  exact logged_packed (hw q hq).1 (hw q hq).2.2.2 ((recorded_iff q).1 (hw q hq).2).1

theorem packed_same {vs : List VLog} {bs bs' : List Bytes} (h : Packed vs bs) (h' : Packed vs bs') : bs = bs' := by
  induction h generalizing bs' with
  | nil => cases h'; rfl
  | cons h _ ih =>
    cases h' with
    | cons g g' =>
      have := h.1.symm.trans g.1
      cases this
      rw [ih g']

/-- What a server leaves is a beginning of what was in the file and of records of requests it was sent. -/
theorem leaves_prefix {ω : Nat → Nat} {w h : List Req} {st : State} {e : Engine} {p : PFile} (hr : Relation.ReflTransGen (Engine.Step ω) (Engine.startOn (historyLog w) st h) e)
    (he : p = e.file ∨ p = e.file.flush ω) (ho : ∀ q ∈ h, q.Occurs) :
    ∃ w', (∀ q ∈ w', q.Occurs ∧ q.Recorded ∧ q ∈ h) ∧ p.disk <+: historyLog (w ++ w') := by
  obtain ⟨done, written, -, hi⟩ := runInv_steps (runInv_startOn _ _ h) hr
  obtain ⟨-, b2⟩ := runInv_recorded hi ho
  refine ⟨recorded written, fun q hq => ⟨(b2 q hq).1, (b2 q hq).2, ?_⟩, ?_⟩
  · have : q ∈ logged (done ++ e.current.toList) := hi.perm.subset (by simp [(recorded_mem.1 hq).1])
    rw [hi.split]
    exact List.mem_append_left _ (List.mem_filter.1 this).1
  · have h6 := hi.pre
    rw [historyLog_append, recorded_log]
    rcases he with rfl | rfl
    · exact (List.prefix_append _ _).trans h6
    · rw [← PFile.flush_bytes ω] at h6
      exact (List.prefix_append _ _).trans h6

/-- Complete records at the beginning of a log are its first records. -/
theorem uncut_prefix {w : List Req} (hw : ∀ q ∈ w, q.Occurs ∧ q.Recorded) {b : Bytes} (hb : b <+: historyLog w) (hu : Uncut b) : ∃ n, b = historyLog (w.take n) := by
  obtain ⟨n, err, -, hp, -⟩ := parse_recorded hw hb
  obtain ⟨vs, bs, hv, rfl⟩ := hu
  have := packed_parse hv []
  rw [List.append_nil, hp] at this
  have e : vs = (w.take n).map reqLog := by
    have := congrArg Prod.fst this
    simpa [show parseLog [] = ([], false) from rfl] using this.symm
  subst e
  exact ⟨n, by rw [packed_same hv (packed_recorded fun q hq => hw q (List.mem_of_mem_take hq))]; rfl⟩

theorem uncut_written {hs : List (List Req)} {d : Bytes} (hl : EndedUncut hs d) (ho : ∀ h ∈ hs, ∀ q ∈ h, q.Occurs) :
    ∃ w, (∀ q ∈ w, q.Occurs ∧ q.Recorded ∧ ∃ h ∈ hs, q ∈ h) ∧ d = historyLog w := by
  induction hl with
  | none => exact ⟨[], by simp, rfl⟩
  | @next hs d ω st h e p _ _ hr he hu ih =>
    obtain ⟨w, h1, rfl⟩ := ih fun h hh => ho h (List.mem_append_left _ hh)
    obtain ⟨w', g1, g2⟩ := leaves_prefix hr he (ho h (by simp))
    have hall : ∀ q ∈ w ++ w', q.Occurs ∧ q.Recorded ∧ ∃ h' ∈ hs ++ [h], q ∈ h' := fun q hq => by
      rcases List.mem_append.1 hq with hq | hq
      · obtain ⟨a, b, h', c, c'⟩ := h1 q hq
        exact ⟨a, b, h', List.mem_append_left _ c, c'⟩
      · obtain ⟨a, b, c⟩ := g1 q hq
        exact ⟨a, b, h, by simp, c⟩
    obtain ⟨n, hn⟩ := uncut_prefix (fun q hq => ⟨(hall q hq).1, (hall q hq).2.1⟩) g2 hu
    exact ⟨(w ++ w').take n, fun q hq => hall q (List.mem_of_mem_take hq), hn⟩

/-- Servers that end at rest with everything on the disk leave no part of a record. -/
theorem lives_uncut {hs : List (List Req)} {rss : List (List Resp)} {d : Bytes} (hl : Lives Engine.Step hs rss d) (ho : ∀ h ∈ hs, ∀ q ∈ h, q.Occurs) : EndedUncut hs d := by
  have : EndedUncut hs d ∧ ∃ w, (∀ q ∈ w, q.Occurs ∧ q.Recorded) ∧ d = historyLog w := by
    induction hl with
    | none => exact ⟨.none, [], by simp, rfl⟩
    | @next hs rss d d' h rs _ hlife ih =>
      obtain ⟨h1, w, h2, rfl⟩ := ih fun h hh => ho h (List.mem_append_left _ hh)
      obtain ⟨w', -, g2, g3⟩ := life_written hlife (ho h (by simp))
      have hall : ∀ q ∈ w ++ w', q.Occurs ∧ q.Recorded := fun q hq => (List.mem_append.1 hq).elim (h2 q) (g2 q)
      have hd : d' = historyLog (w ++ w') := by rw [g3, historyLog_append]
      obtain ⟨ω, st, e, hb, hr, -, -, -, rfl⟩ := hlife
      exact ⟨.next h1 hb hr (.inl rfl) ⟨_, _, packed_recorded hall, hd⟩, w ++ w', hall, hd⟩
  exact this.1

/-- A server that starts on any beginning of the log of some requests. -/
theorem cut_keeps {P : DB → Prop} (hp : P DB.empty) {w : List Req} (hw : ∀ q ∈ w, q.Occurs ∧ q.Recorded) (hk : ∀ q ∈ w, KeptBy P q) {b : Bytes} (hb : b <+: historyLog w)
    {envs : Nat → Env} (hf : ∀ i, (envs i).ord.Fair) {dbs : DBs} (hs : fromFile noDBs envs b = .ok dbs) : ∃ a, Abs (dbs 1) a ∧ P a := by
  obtain ⟨n, err, -, hparse, -⟩ := parse_recorded hw hb
  rw [fromFile, hparse, build_started fun q hq => hw q (List.mem_of_mem_take hq)] at hs
  cases e : serve State.empty (again envs (w.take n)) with
  | panic => rw [e] at hs; cases hs
  | diverge => rw [e] at hs; cases hs
  | ok x =>
    obtain ⟨st, rs⟩ := x
    rw [e] at hs
    cases hs
    obtain ⟨a, h1, h2⟩ := serve_trace abs_empty (fun q hq => by
      obtain ⟨i, hi, rfl⟩ := List.mem_mapIdx.1 hq
      exact hf i) e
    refine ⟨a, h2, (trace_keeps h1 (fun q hq => ?_) hp).1⟩
    obtain ⟨y, hy, rfl⟩ := List.mem_map.1 hq
    obtain ⟨i, hi, rfl⟩ := List.mem_mapIdx.1 hy
    exact fun x b b1 o => hk _ (List.mem_of_mem_take (List.getElem_mem hi)) x b b1 o

/-- C108: what holds of an empty database and is kept by every request served, holds whenever a server has started, at every moment while it runs, every reply is given as from a database of
which it holds; and however the process ends – at any moment, with records half written and writers overtaking each other – it holds of the next server, if that one starts. Earlier servers may have ended at
any moment, too, if they left no part of a record. What is missing are servers started on a file that ends with a part of a record: refuted by `C108_kept_false`. -/
theorem C108_kept_partial {P : DB → Prop} (hp : P DB.empty) {hs : List (List Req)} {st : State} {h : List Req} {e : Engine} {p : PFile} (hr : RunsLast hs st h e p)
    (ho : ∀ h' ∈ h :: hs, ∀ q ∈ h', q.Occurs ∧ KeptBy P q) :
    (∃ a, Abs st a ∧ P a) ∧ (∃ a, Abs e.db a ∧ P a) ∧
      (∀ (i : Nat) (x : Command) (q : Req) (r : Resp), h[i]? = some q → e.replies[i]? = some r → Means q.objs x →
        ∃ b b1, P b ∧ P b1 ∧ (Step b x (done b1 r) ∨ ∃ e, Step b x (fails b1 e) ∧ ErrorReply e r)) ∧
      ∀ envs dbs, (∀ i : Nat, (envs i).ord.Fair) → fromFile noDBs envs p.disk = .ok dbs → ∃ a, Abs (dbs 1) a ∧ P a := by
  obtain ⟨d, ω, hl, ⟨envs0, dbs0, hf0, hb0, rfl⟩, hrun, he⟩ := hr
  obtain ⟨w, hw, rfl⟩ := uncut_written hl fun h' hh q hq => (ho h' (List.mem_cons_of_mem _ hh) q hq).1
  have hw1 : ∀ q ∈ w, q.Occurs ∧ q.Recorded := fun q hq => ⟨(hw q hq).1, (hw q hq).2.1⟩
  have hwk : ∀ q ∈ w, KeptBy P q := fun q hq => by
    obtain ⟨-, -, h', a, b⟩ := hw q hq
    exact (ho h' (List.mem_cons_of_mem _ a) q b).2
  obtain ⟨a0, ha0, hp0⟩ := cut_keeps hp hw1 hwk List.prefix_rfl hf0 hb0
  obtain ⟨done, written, -, hi⟩ := runInv_steps (runInv_startOn _ _ h) hrun
  have hdone : ∀ q ∈ done, q ∈ h := fun q hq => by rw [hi.split]; simp [hq]
  obtain ⟨a1, t1, t2⟩ := serve_trace ha0 (fun q hq => by
    obtain ⟨x, hx, rfl⟩ := List.mem_map.1 hq
    exact (ho h (by simp) x (hdone x hx)).1.fair) hi.served
  rw [served, List.map_map] at t1
  obtain ⟨g1, g2⟩ := trace_keeps t1 (fun q hq => by
    obtain ⟨x, hx, rfl⟩ := List.mem_map.1 hq
    exact (ho h (by simp) x (hdone x hx)).2) hp0
  refine ⟨⟨a0, ha0, hp0⟩, ⟨a1, t2, g1⟩, fun i x q r hq hr hm => ?_, fun envs dbs hf hs => ?_⟩
  · refine g2 i x r ⟨q.objs, ?_, hm, hr⟩
    have hlt : i < done.length := by
      have := trace_length t1
      rw [List.length_map] at this
      rw [this]
      exact (List.getElem?_eq_some_iff.1 hr).1
    rw [hi.split, List.append_assoc, List.getElem?_append_left hlt] at hq
    simp [List.getElem?_map, hq]
  · obtain ⟨w', j1, j2⟩ := leaves_prefix hrun he fun q hq => (ho h (by simp) q hq).1
    exact cut_keeps hp (fun q hq => (List.mem_append.1 hq).elim (hw1 q) fun hq => ⟨(j1 q hq).1, (j1 q hq).2.1⟩)
      (fun q hq => (List.mem_append.1 hq).elim (hwk q) fun hq => (ho h (by simp) q (j1 q hq).2.2).2) j2 hf hs

theorem together_kept {k k' : Bytes} {q : Req} (h : Writes .str q.objs k ∨ Writes .str q.objs k' → SetsBoth k k' q) : KeptBy (fun a => a.strs k = a.strs k') q := by
  intro x b b1 o hm hb hs
  by_cases hw : Writes .str q.objs k ∨ Writes .str q.objs k'
  · obtain ⟨v, hv⟩ := h hw
    cases means_unique hm hv
    simp only [Step, List.cons_ne_nil, if_false] at hs
    cases hs
    simp only [List.zip_cons_cons, List.zip_nil_right, List.foldl_cons, List.foldl_nil, DB.setStr, Function.update_self]
    by_cases e : k = k'
    · rw [e, Function.update_self]
    · rw [Function.update_of_ne e, Function.update_self]
  · obtain ⟨h1, -⟩ := step_frame hm hs
    show b1.strs k = b1.strs k'
    rw [h1 k fun g => hw (.inl g), h1 k' fun g => hw (.inr g)]
    exact hb

/-- C108: so two keys that are only ever set together, to the same text, are the same after a crash at any moment, if earlier crashes left no part of a record. -/
theorem C108_together_partial {k k' : Bytes} {hs : List (List Req)} {st : State} {h : List Req} {e : Engine} {p : PFile} (hr : RunsLast hs st h e p)
    (ho : ∀ h' ∈ h :: hs, ∀ q ∈ h', q.Occurs ∧ (Writes .str q.objs k ∨ Writes .str q.objs k' → SetsBoth k k' q))
    {envs : Nat → Env} (hf : ∀ i, (envs i).ord.Fair) {dbs : DBs} (hn : fromFile noDBs envs p.disk = .ok dbs) : ∃ a, Abs (dbs 1) a ∧ a.strs k = a.strs k' :=
  (C108_kept_partial (P := fun a => a.strs k = a.strs k') rfl hr fun h' hh q hq => ⟨(ho h' hh q hq).1, together_kept (ho h' hh q hq).2⟩).2.2.2 envs dbs hf hn

/-- A request that sets two keys together. -/
def both (v : Bytes) : Req := sent [b!"mset", b!"a", v, b!"b", v]

theorem both_sets (v : Bytes) : SetsBoth b!"a" b!"b" (both v) := ⟨v, rfl, request_req (n := b!"mset") [b!"a", v, b!"b", v]⟩

/-- The hypotheses of `C108_kept_partial` and `C108_together_partial`: a server has set two keys together, and the next one is killed after it has set them again and before this is logged. -/
example : ∃ st e p, RunsLast [[both b!"1"]] st [both b!"2"] e p ∧ e.replies = [okReply] ∧ e.pending = [both b!"2"] ∧ p.disk = historyLog [both b!"1"] ∧
    ∀ h' ∈ [[both b!"2"], [both b!"1"]], ∀ q ∈ h', q.Occurs ∧ SetsBoth b!"a" b!"b" q ∧ KeptBy (fun a => a.strs b!"a" = a.strs b!"b") q := by
  have hb : Begins [] State.empty := ⟨fun _ => env0, noDBs, fun _ => env0_fair, rfl, rfl⟩
  have hrec : (both b!"1").Recorded := (recorded_iff _).2 ⟨rfl, sent_text (by decide +kernel)⟩
  obtain ⟨st1, h1⟩ : ∃ st1, handle (both b!"1").env State.empty (both b!"1").objs = .ok (st1, okReply) := ⟨_, rfl⟩
  have o1 : (both b!"1").Occurs := sent_occurs
  obtain ⟨e, h2, h3, h4, h5, -, h6⟩ := short_life_on (d := []) o1 hrec h1 (by decide +kernel) (by decide +kernel)
  have hl : Lives Engine.Step ([] ++ [[both b!"1"]]) ([] ++ [[okReply]]) (historyLog [both b!"1"]) :=
    .next .none ⟨_, _, e, hb, Relation.ReflTransGen.mono (r := Unhurried _) (p := Engine.Step _) (fun _ _ h => h.1) _ _ h2, h3, h4, h5, h6⟩
  have hb1 : ∃ dbs, fromFile noDBs (fun _ => env0) (historyLog [both b!"1"]) = .ok dbs ∧
      ∃ st2, handle (both b!"2").env (dbs 1) (both b!"2").objs = .ok (st2, okReply) := by
    rw [fromFile_recorded (by simpa using o1), recorded_self (by simpa using hrec)]
    exact ⟨_, rfl, _, rfl⟩
  obtain ⟨dbs, g1, st2, g2⟩ := hb1
  have hr : Relation.ReflTransGen (Engine.Step fun _ => 100) (Engine.startOn (historyLog [both b!"1"]) (dbs 1) [both b!"2"]) _ :=
    .tail (.tail .refl (.receive rfl rfl)) (.execute rfl g2)
  refine ⟨dbs 1, _, _, ⟨_, _, lives_uncut hl (by simpa using o1), ⟨fun _ => env0, dbs, fun _ => env0_fair, g1, rfl⟩, hr, .inl rfl⟩, rfl, rfl, rfl, fun h' hh q hq => ?_⟩
  have : ∃ v, q = both v ∧ q.Occurs := by
    simp only [List.mem_cons, List.not_mem_nil, or_false] at hh
    rcases hh with rfl | rfl <;> rw [List.mem_singleton] at hq <;> subst hq
    · exact ⟨_, rfl, sent_occurs⟩
    · exact ⟨_, rfl, sent_occurs⟩
  obtain ⟨v, rfl, ho⟩ := this
  exact ⟨ho, both_sets v, together_kept fun _ => both_sets v⟩

/-! ### Records that nobody wrote -/

/-- A request whose record is cut, and one whose record follows it. -/
def cutReq : Req := sent [b!"set", b!"k", List.replicate 60 97]
def nextReq : Req := sent [b!"set", b!"k", b!"zX" ++ List.replicate 27 98]

/-- What is in the file then. -/
def cutFile : Bytes := (requestLog cutReq.stamp cutReq.objs).take 62

theorem cutReq_ok : cutReq.Occurs ∧ cutReq.Recorded := ⟨sent_occurs (by decide +kernel) (by decide +kernel) (by decide +kernel), (recorded_iff _).2 ⟨rfl, sent_text (by decide +kernel)⟩⟩
theorem nextReq_ok : nextReq.Occurs ∧ nextReq.Recorded := ⟨sent_occurs (by decide +kernel) (by decide +kernel) (by decide +kernel), (recorded_iff _).2 ⟨rfl, sent_text (by decide +kernel)⟩⟩

/-- What the next server answers to GET. -/
def shownOn (f : Bytes) : Option Bytes :=
  match fromFile noDBs (fun _ => env0) f with
  | .ok dbs => match handle env0 (dbs 1) (req [b!"get", b!"k"]) with
    | .ok (_, .bulk t) => some t
    | _ => none
  | _ => none

theorem phantom_shown : ∃ t, shownOn (cutFile ++ historyLog [nextReq]) = some t ∧ t ≠ List.replicate 60 97 ∧ t ≠ b!"zX" ++ List.replicate 27 98 := by
  refine ⟨(shownOn (cutFile ++ historyLog [nextReq])).getD [], ?_, ?_, ?_⟩ <;> decide +kernel

theorem set_runs (v : Bytes) : ∃ st, handle env0 State.empty (sent [b!"set", b!"k", v]).objs = .ok (st, okReply) := by
  obtain ⟨out, hst, hob⟩ := handle_refines abs_empty env0_fair (c := .set b!"k" v) (request_req (n := b!"set") [b!"k", v])
  simp only [Step] at hst
  subst hst
  obtain ⟨st1, h1, -⟩ := hob
  exact ⟨st1, h1⟩

theorem one_left {ω : Nat → Nat} {q : Req} {st1 : State} {r : Resp} (h1 : handle q.env State.empty q.objs = .ok (st1, r)) (hl : isLogged q.objs = true) :
    EndedOver [[q]] ((writeRecord ω (PFile.new []) q).flush ω).disk := by
  have hr : Relation.ReflTransGen (Engine.Step ω) (Engine.startOn [] State.empty [q]) _ :=
    .tail (.tail (.tail (.tail .refl (.receive rfl rfl)) (.execute rfl h1)) (.write (before := []) (after := []) (q := q) (by simp [hl, Engine.startOn, Engine.start]))) .flush
  exact EndedOver.next .none ⟨fun _ => env0, noDBs, fun _ => env0_fair, rfl, rfl⟩ hr (.inl rfl)

theorem cut_left : EndedOver [[cutReq]] cutFile := by
  obtain ⟨st1, h1⟩ : ∃ st1, handle cutReq.env State.empty cutReq.objs = .ok (st1, okReply) := set_runs _
  have e : ((writeRecord (fun _ => 62) (PFile.new []) cutReq).flush fun _ => 62).disk = cutFile := by decide +kernel
  rw [← e]
  exact one_left h1 rfl

/-- C108 is false if servers may end again and again: a server is stopped when half of the record of a SET is on the disk, the next one writes its record behind it, and the one after that sets the
key to a text that nobody ever sent. -/
theorem C108_kept_false : ¬ KeptForever := by
  intro H
  have hb : Begins cutFile State.empty := ⟨fun _ => env0, noDBs, fun _ => env0_fair, by
    have : (parseLog cutFile).1 = [] := by decide +kernel
    rw [fromFile, this]; rfl, rfl⟩
  obtain ⟨st1, h1⟩ : ∃ st1, handle nextReq.env State.empty nextReq.objs = .ok (st1, okReply) := set_runs _
  obtain ⟨e, h2, -, -, -, -, h3⟩ := short_life_on (d := cutFile) nextReq_ok.1 nextReq_ok.2 h1 (by decide +kernel) (by decide +kernel)
  have h4 := EndedOver.next cut_left hb (Relation.ReflTransGen.mono (r := Unhurried _) (p := Engine.Step _) (fun _ _ h => h.1) _ _ h2) (.inl rfl)
  rw [h3] at h4
  have key : ∀ v, KeptBy (fun b => ∀ t, b.strs b!"k" = some t → t = List.replicate 60 97 ∨ t = b!"zX" ++ List.replicate 27 98) (sent [b!"set", b!"k", v]) ∨
      ¬ (v = List.replicate 60 97 ∨ v = b!"zX" ++ List.replicate 27 98) := fun v => by
    by_cases hv : v = List.replicate 60 97 ∨ v = b!"zX" ++ List.replicate 27 98
    · refine .inl fun x b b1 o hm _ hs t ht => ?_
      have hm' : Means (sent [b!"set", b!"k", v]).objs (.set b!"k" v) := request_req (n := b!"set") [b!"k", v]
      cases means_unique hm hm'
      cases hs
      simp only [DB.setStr, Function.update_self, Option.some.injEq] at ht
      exact ht ▸ hv
    · exact .inr hv
  obtain ⟨t, g1, g2, g3⟩ := phantom_shown
  unfold shownOn at g1
  split at g1
  · rename_i dbs hd
    obtain ⟨a, a1, a2⟩ := H (fun b => ∀ t, b.strs b!"k" = some t → t = List.replicate 60 97 ∨ t = b!"zX" ++ List.replicate 27 98) _ _ (by intro t ht; cases ht) h4 (by
      intro h hh q hq
      simp only [List.cons_append, List.nil_append, List.mem_cons, List.not_mem_nil, or_false] at hh
      rcases hh with rfl | rfl <;> rw [List.mem_singleton] at hq <;> subst hq
      · exact ⟨cutReq_ok.1, (key _).resolve_right fun h => h (.inl rfl)⟩
      · exact ⟨nextReq_ok.1, (key _).resolve_right fun h => h (.inr rfl)⟩) _ dbs (fun _ => env0_fair) hd
    split at g1
    · rename_i st' t' hh
      cases g1
      obtain ⟨out, s1, s2⟩ := handle_refines a1 env0_fair (c := .get b!"k") (request_req (n := b!"get") [b!"k"])
      cases s1
      obtain ⟨st2, s3, -⟩ := s2
      rw [hh] at s3
      cases hv : a.strs b!"k" with
      | none => rw [hv] at s3; cases s3
      | some v =>
        rw [hv] at s3
        cases s3
        exact (a2 _ hv).elim g2 g3
    · cases g1
  · cases g1

end Verif.Props
