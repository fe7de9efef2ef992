import Verif.Spec.Fleet
import Verif.Props.Site
import Verif.Props.Restart

/-!
C87: a process with users and replicas, and the replicas with theirs.
-/

namespace Verif.Props

open Verif Spec
open Verif.Fut (upd)

variable {ω : Nat → Nat} {d : Bytes} {st : State} {U : Nat → Bool} {tr : List Fleet.Ev} {s : Fleet.Sys}

theorem siteOf_append (a b : List Fleet.Ev) : siteOf (a ++ b) = siteOf a ++ siteOf b := List.filterMap_append

theorem handOf_append (a b : List Fleet.Ev) : handOf (a ++ b) = handOf a ++ handOf b := List.map_append

/-- What is on the disk stays there. -/
theorem whole_grows {w w' : Whole.Sys} {e : Whole.Ev} (hs : Whole.Step ω w e w') : w.file.disk <+: w'.file.disk := by
  cases hs with
  | record q b a _ _ hp => exact step_grows (e := ⟨[], none, w.hub.db, [], [q], w.file⟩) (.write (before := []) (after := []) rfl)
  | flush => exact step_grows (e := ⟨[], none, w.hub.db, [], [], w.file⟩) .flush
  | _ => exact List.prefix_rfl

theorem exec_grows {w w' : Whole.Sys} {es : List Whole.Ev} (h : Exec (Whole.Step ω) w es w') : w.file.disk <+: w'.file.disk :=
  h.inv (P := fun _ w' => w.file.disk <+: w'.file.disk) List.prefix_rfl fun _ _ _ _ _ ih hs => ih.trans (whole_grows hs)

/-- What a step of process and users is for the process. -/
theorem site_proc {m : Bool} {s s' : Site.Sys} {e : Site.Ev} (h : Site.Step m ω U s e s') : Exec (Proc.Step m ω) s.proc (procOf [e]) s'.proc := by
  cases h with
  | proc e p _ _ hp => exact .one hp
  | gone => exact .nil
  | desk => exact .nil

theorem still_step {R : Engine → Engine → Prop} {s s' : Master.Sys} {l : Master.Ev} (h : Master.Step Fleet.still ω s l s') : Master.Step R ω s l s' := by
  cases h with
  | engine he => cases he
  | accept _ h1 h2 => exact .accept _ h1 h2
  | acceptFails h1 => exact .acceptFails h1
  | noFile _ h1 h2 => exact .noFile _ h1 h2
  | enter _ h1 h2 => exact .enter _ h1 h2
  | list _ h1 => exact .list _ h1
  | create _ h1 => exact .create _ h1
  | flush _ h1 h2 => exact .flush _ h1 h2
  | flushFails _ h1 h2 => exact .flushFails _ h1 h2
  | openRaw _ h1 => exact .openRaw _ h1
  | copy _ h1 => exact .copy _ h1
  | prepare _ _ h1 => exact .prepare _ _ h1
  | send _ _ _ _ h1 h2 h3 => exact .send _ _ _ _ h1 h2 h3
  | finish _ _ _ h1 h2 => exact .finish _ _ _ h1 h2
  | fail _ h1 => exact .fail _ h1
  | broke _ h1 => exact .broke _ h1

/-- A flush for a replica, in the process. -/
theorem flushes_file {m : Bool} {s s' : Site.Sys} (h : Site.Step m ω U s Fleet.flushes s') : s'.proc.full.whole.file = s.proc.full.whole.file.flush ω := by
  cases h with
  | proc _ p _ _ hp =>
    cases hp with
    | both _ _ w f t _ _ _ _ hf _ =>
      cases hf with
      | whole _ w _ hw =>
        cases hw with
        | flush => rfl

theorem fleet_parts {s0 : Fleet.Sys} (hf : s0.hand.file = true) (he : s0.hand.engine.file = s0.site.proc.full.whole.file) (h : Exec (Fleet.Step ω U) s0 tr s) :
    Exec (Site.Step true ω U) s0.site (siteOf tr) s.site ∧
    Exec (Master.Step Grows ω) s0.hand (handOf tr) s.hand ∧ s.hand.engine.file = s.site.proc.full.whole.file := by
  refine h.inv (P := fun tr s => Exec (Site.Step true ω U) s0.site (siteOf tr) s.site ∧
    Exec (Master.Step Grows ω) s0.hand (handOf tr) s.hand ∧ s.hand.engine.file = s.site.proc.full.whole.file)
    ⟨.nil, .nil, he⟩ ?_
  rintro tr s e s' - ⟨h1, h2, h3⟩ hs
  have hfile : s.hand.file = true := (mirror_file h2).trans hf
  rw [siteOf_append, handOf_append]
  cases hs with
  | site e t he ht =>
    refine ⟨h1.snoc ht, h2.snoc ?_, rfl⟩
    have := Master.Step.engine (engine := Grows) (ω := ω) (s := s.hand) (e := { s.hand.engine with file := t.proc.full.whole.file }) (by
      show s.hand.engine.file.disk <+: t.proc.full.whole.file.disk
      rw [h3]
      exact exec_grows (proc_run (site_proc ht)))
    have e1 : Master.noLog s.hand.file s.hand.engine { s.hand.engine with file := t.proc.full.whole.file } =
      { s.hand.engine with file := t.proc.full.whole.file } := by rw [hfile]; rfl
    rw [e1] at this
    exact this
  | flush c l t h' hp hl ht hm =>
    refine ⟨h1.snoc ht, h2.snoc (l := l) (still_step hm), ?_⟩
    rw [flushes_file ht, ← h3]
    rcases hl with rfl | rfl
    · cases hm with
      | flush => rfl
    · cases hm with
      | flushFails => rfl
      | fail _ hc => rw [hp] at hc; cases hc
  | hand l h' ha hu hm =>
    refine ⟨by rw [show siteOf [.hand l] = [] from rfl, List.append_nil]; exact h1, h2.snoc (l := l) (still_step hm), ?_⟩
    rw [← h3]
    cases hm with
    | engine he => cases he
    | flush => cases ha
    | flushFails c hp => exact absurd hp ha
    | _ => rfl

/-- C87: what happens in the process is something that can happen in the process of C86, what happens to the replicas something that can happen at the master of
C64, and both have the same log. -/
theorem C87_parts (h : Exec (Fleet.Step ω U) (Fleet.new d st) tr s) :
    Exec (Site.Step true ω U) (Site.new d st) (siteOf tr) s.site ∧
    Exec (Master.Step Grows ω) (Master.new (Engine.start d []) true) (handOf tr) s.hand ∧ s.hand.engine.file = s.site.proc.full.whole.file :=
  fleet_parts rfl rfl h

theorem fleet_grows {s0 : Fleet.Sys} (h : Exec (Fleet.Step ω U) s0 tr s) : s0.site.proc.full.whole.file.disk <+: s.site.proc.full.whole.file.disk := by
  refine h.inv (P := fun _ s => s0.site.proc.full.whole.file.disk <+: s.site.proc.full.whole.file.disk) List.prefix_rfl ?_
  rintro tr s e s' - ih hs
  cases hs with
  | site e t he ht => exact ih.trans (exec_grows (proc_run (site_proc ht)))
  | flush c l t h' hp hl ht hm => exact ih.trans (exec_grows (proc_run (site_proc ht)))
  | hand l h' => exact ih

/-! ### What a replica gets to know -/

theorem fleet_calm (h : Exec (Fleet.Calmly ω U) (Fleet.new d st) tr s) :
    Exec (Fleet.Step ω U) (Fleet.new d st) tr s ∧ Exec (Proc.Calmly true ω) (Proc.new d st) (procOf (siteOf tr)) s.site.proc := by
  refine h.inv (P := fun tr s => Exec (Fleet.Step ω U) (Fleet.new d st) tr s ∧
    Exec (Proc.Calmly true ω) (Proc.new d st) (procOf (siteOf tr)) s.site.proc) ⟨.nil, .nil⟩ ?_
  rintro tr s e s' - ⟨h1, h2⟩ ⟨hs, hc⟩
  refine ⟨h1.snoc hs, ?_⟩
  rw [siteOf_append, procOf_append]
  have key : ∀ {x : Site.Ev} {t : Site.Sys}, siteOf [e] = [x] → Site.Step true ω U s.site x t →
      Exec (Proc.Calmly true ω) (Proc.new d st) (procOf (siteOf tr) ++ procOf [x]) t.proc := by
    intro x t hx ht
    rw [hx] at hc
    cases ht with
    | proc e p _ _ hp => exact h2.snoc ⟨hp, hc⟩
    | gone => rw [show procOf [.desk .gone] = [] from rfl, List.append_nil]; exact h2
    | desk e' t' => rw [show procOf [.desk e'] = [] from rfl, List.append_nil]; exact h2
  cases hs with
  | site e t he ht => exact key rfl ht
  | flush c l t h' hp hl ht hm => exact key rfl ht
  | hand l h' => rw [show procOf (siteOf [.hand l]) = [] from rfl, List.append_nil]; exact h2

/-- Requests that can be replayed. -/
def Replayable (q : Req) : Prop := q.Occurs ∧ ¬ q.Is b!"ltrim" ∧ ¬ q.Is b!"spop" ∧ ∀ o ∈ q.objs, TextObj o

/-- After some lives comes a part of one more. -/
theorem lives_then {hs : List (List Req)} {rss : List (List Resp)} {d : Bytes} (hl : Lives Unhurried hs rss d) (ho : ∀ h ∈ hs, ∀ q ∈ h, Replayable q)
    {st st' : State} (hb : Begins d st) {h : List Req} {rs : List Resp} (hh : ∀ q ∈ h, Replayable q) (hserve : serve st (served h) = .ok (st', rs)) :
    d = historyLog hs.flatten ∧ ∃ a, Trace DB.empty ((hs.flatten ++ h).map Req.objs) (rss.flatten ++ rs) a ∧ Abs st' a ∧
      ∀ envs : Nat → Env, (∀ i, (envs i).ord.Fair) → ∃ dbs, buildFromLog noDBs envs (historyRecords (hs.flatten ++ h)) = .ok dbs ∧ Abs (dbs 1) a ∧
        ∀ i, i ≠ 1 → dbs i = State.empty := by
  obtain ⟨rfl, a, h1, h2⟩ := lives_inv hl ho
  have hpast : ∀ q ∈ hs.flatten, q.Occurs ∧ ∀ o ∈ q.objs, TextObj o := fun q hq => by
    obtain ⟨k, hk, hq⟩ := List.mem_flatten.1 hq
    have := ho k hk q hq
    exact ⟨this.1, this.2.2.2⟩
  obtain ⟨envs0, dbs0, hf0, hb0, rfl⟩ := hb
  obtain ⟨dbs1, n1, g1, g2, -⟩ := h2 envs0 hf0 []
  rw [List.append_nil] at g1
  rw [fromFile_history hpast, g1] at hb0
  cases hb0
  obtain ⟨a', t1, t2⟩ := serve_trace g2 (fun q hq => by
    obtain ⟨x, hx, rfl⟩ := List.mem_map.1 hq
    exact (hh x hx).1.fair) hserve
  refine ⟨rfl, a', ?_, t2, fun envs hf => ?_⟩
  · rw [List.map_append]
    refine trace_append h1 ?_
    rw [served, List.map_map] at t1
    exact t1
  · obtain ⟨dbs2, n2, k1, k2, k3⟩ := h2 envs hf (historyRecords h ++ [])
    obtain ⟨dbs3, a3, n3, m1, m2, m3, m4⟩ := replay_abs (fun q hq => ⟨(hh q hq).1, (hh q hq).2.1, (hh q hq).2.2.1⟩) g2 hserve k2
      (fun i => hf (i + n2)) []
    cases abs_unique m2 t2
    refine ⟨dbs3, ?_, m3, fun i hi => (m4 i hi).trans (k3 i hi)⟩
    have e : historyRecords (hs.flatten ++ h) = historyRecords hs.flatten ++ (historyRecords h ++ []) := by simp [historyRecords]
    rw [e, k1, m1]
    rfl

theorem lives_length {hs : List (List Req)} {rss : List (List Resp)} {d : Bytes} (hl : Lives Unhurried hs rss d) : rss.flatten.length = hs.flatten.length := by
  induction hl with
  | none => rfl
  | next _ hlife ih =>
    obtain ⟨-, st, st', -, hs⟩ := life_file hlife
    have := serve_length hs
    simp_all [served]

/-- The beginning of some lives is some lives and a part of one more. -/
theorem lives_take {hs : List (List Req)} {rss : List (List Resp)} {d : Bytes} (hl : Lives Unhurried hs rss d) (n : Nat) :
    ∃ hs' rss' d' st h st' rs, Lives Unhurried hs' rss' d' ∧ Begins d' st ∧ serve st (served h) = .ok (st', rs) ∧ hs'.flatten ++ h = hs.flatten.take n ∧
      rss'.flatten ++ rs = rss.flatten.take n ∧ ∀ k ∈ hs', k ∈ hs := by
  induction hl with
  | none => exact ⟨[], [], [], State.empty, [], State.empty, [], .none, ⟨fun _ => env0, noDBs, fun _ => env0_fair, rfl, rfl⟩, rfl, by simp, by simp, by simp⟩
  | @next hs rss d d' h rs hl hlife ih =>
    have hlen := lives_length hl
    rcases Nat.lt_or_ge n hs.flatten.length with hn | hn
    · obtain ⟨hs', rss', d', st, h', st', rs', g1, g2, g3, g4, g5, g6⟩ := ih
      refine ⟨hs', rss', d', st, h', st', rs', g1, g2, g3, ?_, ?_, fun k hk => by simp [g6 k hk]⟩
      · rw [g4, List.flatten_append, List.take_append_of_le_length (by omega)]
      · rw [g5, List.flatten_append, List.take_append_of_le_length (by omega)]
    · obtain ⟨-, st, st', hb, hserve⟩ := life_file hlife
      obtain ⟨s, rs', g1, rfl⟩ := serve_take hserve (n - hs.flatten.length)
      refine ⟨hs, rss, d, st, h.take (n - hs.flatten.length), s, rs.take (n - hs.flatten.length), hl, hb, ?_, ?_, ?_, fun k hk => by simp [hk]⟩
      · rw [← g1]; simp [served, List.map_take]
      · rw [List.flatten_append, List.take_append, List.take_of_length_le hn]; simp
      · rw [List.flatten_append, List.take_append, List.take_of_length_le (l := rss.flatten) (i := n) (by omega), hlen]; simp

/-- What the beginning of the file tells, of all lives and the part of the present one that has been executed. -/
theorem replica_history {hs : List (List Req)} {rss : List (List Resp)} {d : Bytes} (hl : Lives Unhurried hs rss d) (ho : ∀ h ∈ hs, ∀ q ∈ h, Replayable q)
    {st : State} (hb : Begins d st) {h : List Req} (hh : ∀ q ∈ h, Replayable q) {e : Engine}
    (hr : Relation.ReflTransGen (Unhurried ω) (Engine.startOn d st h) e) (ht : e.todo = []) (hc : e.current = none) {b : Bytes} (hp : b <+: e.file.disk) :
    ∃ n a, n ≤ (hs.flatten ++ h).length ∧ Trace DB.empty (((hs.flatten ++ h).take n).map Req.objs) ((rss.flatten ++ e.replies).take n) a ∧
      (∀ envs : Nat → Env, (∀ i, (envs i).ord.Fair) → ∃ dbs, buildFromLog noDBs envs (parseLog b).1 = .ok dbs ∧ Abs (dbs 1) a ∧
        ∀ i, i ≠ 1 → dbs i = State.empty) ∧
      ∀ m, m ≤ (hs.flatten ++ h).length → (historyLog ((hs.flatten ++ h).take m)).length ≤ b.length → m ≤ n := by
  have hserve : serve st (served h) = .ok (e.db, e.replies) := by
    obtain ⟨done', written, -, h5⟩ := runInv_steps (runInv_startOn d st h) (Relation.ReflTransGen.mono (r := Unhurried ω) (p := Engine.Step ω) (fun _ _ h => h.1) _ _ hr)
    have := h5.split
    rw [ht, hc] at this
    simp only [Option.toList_none, List.append_nil] at this
    subst this
    exact h5.served
  obtain ⟨hd, -⟩ := lives_then hl ho hb hh hserve
  have hrep : rss.flatten.length = hs.flatten.length := lives_length hl
  have hdisk : e.file.disk <+: historyLog (hs.flatten ++ h) := by
    obtain ⟨L, h0, h1, h2, h3, h4, h5, h6, h7⟩ := unhurried_inv_on hr
    have : received h e = h.length := by simp [received, ht]
    rw [this, List.take_length] at h1
    rw [historyLog_append, ← hd, ← h1]
    exact (List.prefix_append _ _).trans (h5.trans (List.prefix_append _ _))
  have hall : ∀ q ∈ hs.flatten ++ h, Replayable q := by
    intro q hq
    rcases List.mem_append.1 hq with hq | hq
    · obtain ⟨k, hk, hq⟩ := List.mem_flatten.1 hq
      exact ho k hk q hq
    · exact hh q hq
  obtain ⟨n, hk⟩ := kept_exists (hs.flatten ++ h) b.length
  have hrecs := parse_history_cut (h := hs.flatten ++ h) (fun q hq => ⟨(hall q hq).1, (hall q hq).2.2.2⟩) hk
  rw [← List.prefix_iff_eq_take.1 (hp.trans hdisk)] at hrecs
  rw [hrecs]
  have key : ∃ a, Trace DB.empty (((hs.flatten ++ h).take n).map Req.objs) ((rss.flatten ++ e.replies).take n) a ∧
      ∀ envs : Nat → Env, (∀ i, (envs i).ord.Fair) → ∃ dbs, buildFromLog noDBs envs (historyRecords ((hs.flatten ++ h).take n)) = .ok dbs ∧ Abs (dbs 1) a ∧
        ∀ i, i ≠ 1 → dbs i = State.empty := by
    rcases Nat.lt_or_ge n hs.flatten.length with hn | hn
    · obtain ⟨hs', rss', d', st1, h', st', rs', g1, g2, g3, g4, g5, g6⟩ := lives_take hl n
      rw [List.take_append_of_le_length (by omega), List.take_append_of_le_length (by omega), ← g4, ← g5]
      obtain ⟨-, a, k1, -, k2⟩ := lives_then g1 (fun k hk => ho k (g6 k hk)) g2 (fun q hq => hall q (List.mem_append_left _
        (List.mem_of_mem_take (g4 ▸ List.mem_append_right _ hq)))) g3
      exact ⟨a, k1, k2⟩
    · obtain ⟨s, rs', g1, rfl⟩ := serve_take hserve (n - hs.flatten.length)
      rw [List.take_append, List.take_of_length_le hn, List.take_append, List.take_of_length_le (l := rss.flatten) (i := n) (by omega), hrep]
      obtain ⟨-, a, k1, -, k2⟩ := lives_then hl ho hb (h := h.take (n - hs.flatten.length)) (fun q hq => hh q (List.mem_of_mem_take hq))
        (by rw [← g1]; simp [served, List.map_take])
      exact ⟨a, k1, k2⟩
  obtain ⟨a, k1, k2⟩ := key
  exact ⟨n, a, hk.1, k1, k2, hk.2.2⟩

theorem proc_lives {m : Bool} {trs : List (List Proc.Ev)} {d : Bytes} (hl : ProcLives (Proc.Calmly m) trs d) (hq : ∀ tr ∈ trs, Plainly (wholeOf (fullOf tr))) :
    ∃ hs, List.Forall₂ (fun tr h => Executed (seenOver tr) h) trs hs ∧ Lives Unhurried hs (trs.map fun tr => (doneIn (seenOver tr)).map fun x => x.2.2) d ∧
      ∀ h ∈ hs, ∀ q ∈ h, Replayable q := by
  have hn : NetLives Whole.Calmly (trs.map fun tr => wholeOf (fullOf tr)) d := by
    clear hq
    induction hl with
    | none => exact .none
    | next _ hb hw ih =>
      obtain ⟨before, s1, i, s2, after, rfl, h1, h2, h3, h4, h5, h6⟩ := hw
      obtain ⟨-, g⟩ := stopped_settled ⟨before, s1, i, s2, after, rfl, calm_exec h1, h2, h3, h4.1, calm_exec h5, h6⟩
      rw [List.map_append]
      exact .next ih hb (calm_run (h1.append (.cons h4 h5))) g
  obtain ⟨hs, h1, h2, h3⟩ := whole_lives (U := True) (R' := Unhurried) (fun _ _ _ _ h => ⟨h.1, fun _ => h.2⟩) (fun _ _ _ h => ⟨h.1, h.2 trivial⟩) hn
  refine ⟨hs, (List.forall₂_map_left_iff (R := fun tr h => Executed (netOf tr) h)).1 h1, by rw [List.map_map] at h2; exact h2, ?_⟩
  intro h hh q hqh
  obtain ⟨tr, m1, m2⟩ := h3 h hh
  obtain ⟨tr', ht', rfl⟩ := List.mem_map.1 m1
  obtain ⟨k1, k2, x, k3, k4⟩ := m2 q hqh
  obtain ⟨m3, m4, m5, m6⟩ := (hq tr' ht').1 q k1
  exact ⟨⟨by rw [k4]; exact (hq tr' ht').2 x k3, k2, m3.time, m3.id, m3.host, m3.small⟩, m4, m5, m6⟩

theorem history_records {a b : List Req} (h : a.map Spec.recordOf = b.map Spec.recordOf) : historyLog a = historyLog b := by
  have : ∀ l : List Req, historyLog l = (l.map Spec.recordOf).flatMap fun r => requestLog r.1 r.2 := fun l => by
    rw [historyLog, List.flatMap_map]; rfl
  rw [this, this, h]

/-- What a replica holds that is started with what has arrived of the log, and how much that is at least. -/
theorem replica_state {trs : List (List Proc.Ev)} (hl : ProcLives (Proc.Calmly true) trs d) (hq : ∀ tr ∈ trs, Plainly (wholeOf (fullOf tr))) (hb : Begins d st)
    (hx : Exec (Fleet.Calmly ω U) (Fleet.new d st) tr s) (hp : Plainly (wholeOf (fullOf (procOf (siteOf tr))))) (hbg : s.site.proc.full.whole.begun = none)
    (hd : s.site.proc.full.whole.file.disk.length < 2 ^ 32) {c : Nat} {got : Bytes} (hg : got <+: s.hand.stream c) :
    ∃ hs h n a, List.Forall₂ (fun tr h => Executed (seenOver tr) h) trs hs ∧ Executed (seenOver (procOf (siteOf tr))) h ∧
      n ≤ (hs.flatten ++ h).length ∧
      Trace DB.empty (((hs.flatten ++ h).take n).map Req.objs) (((trs.flatMap fun tr => (doneIn (seenOver tr)).map fun x => x.2.2) ++
        (doneIn (seenOver (procOf (siteOf tr)))).map fun x => x.2.2).take n) a ∧
      (∀ envs envs' : Nat → Env, (∀ i, (envs' i).ord.Fair) → ∃ dbs, syncExternal envs envs' (some []) (some got) = .ok dbs ∧ Abs (dbs 1) a ∧
        ∀ i, i ≠ 1 → dbs i = State.empty) ∧
      (∃ b, Trace DB.empty ((hs.flatten ++ h).map Req.objs) ((trs.flatMap fun tr => (doneIn (seenOver tr)).map fun x => x.2.2) ++
        (doneIn (seenOver (procOf (siteOf tr)))).map fun x => x.2.2) b ∧ Abs s.site.proc.full.whole.hub.db b) ∧
      (s.site.proc.full.whole.file.failed = false → s.site.proc.full.whole.file.buf = [] → s.site.proc.full.whole.pending = [] →
        (receive (transfer s.site.proc.full.whole.file.disk)).2 = none) ∧
      ∀ before s1 after, Exec (Fleet.Calmly ω U) (Fleet.new d st) (before ++ [.flush (.flushed c)]) s1 → Exec (Fleet.Calmly ω U) s1 after s →
        tr = before ++ .flush (.flushed c) :: after → (receive got).2 = none →
        hs.flatten.length + (doneIn (seenOver (procOf (siteOf before)))).length ≤ n + s1.site.proc.full.whole.pending.length ∧
          s1.site.proc.full.whole.pending.length ≤ 1 := by
  obtain ⟨hs, l1, l2, l3⟩ := proc_lives hl hq
  obtain ⟨hx1, hx2⟩ := fleet_calm hx
  obtain ⟨-, hx3, hx4⟩ := C87_parts hx1
  -- the present process, at any of its moments
  have now : ∀ {tr : List Fleet.Ev} {s : Fleet.Sys}, Exec (Fleet.Calmly ω U) (Fleet.new d st) tr s →
      ∃ h, Logs True ω d st (wholeOf (fullOf (procOf (siteOf tr)))) s.site.proc.full.whole h := by
    intro tr s hx
    exact whole_logs ((calm_run (fleet_calm hx).2).inv (P := fun tr w => Exec (Goes True ω) (Whole.new d st) tr w) .nil
      fun _ _ _ _ _ ih hst => ih.snoc ⟨hst.1, fun _ => hst.2⟩)
  have unh : ∀ {h : List Req} {e : Engine}, Relation.ReflTransGen (Moves True ω) (Engine.startOn d st h) e →
      Relation.ReflTransGen (Unhurried ω) (Engine.startOn d st h) e := fun hr =>
    Relation.ReflTransGen.mono (r := Moves True ω) (p := Unhurried ω) (fun _ _ h => ⟨h.1, h.2 trivial⟩) _ _ hr
  obtain ⟨h, g1, g2, g3⟩ := now hx
  obtain ⟨e, e1, e2, e3, e4, e5, e6, e7⟩ := g3 env0
  change e.replies = (doneIn (seenOver (procOf (siteOf tr)))).map _ at e5
  rw [atWork, hbg] at e1 e3
  rw [hbg] at g1
  simp only [Option.map_none, Option.toList_none, List.append_nil] at e1 e3 g1
  have hh : ∀ q ∈ h, Replayable q := by
    intro q hqh
    obtain ⟨n, hn, -⟩ := whole_net (proc_run (calm_exec hx2))
    obtain ⟨k2, x, k3, k4⟩ := executed_wire hn g2 hqh
    obtain ⟨m3, m4, m5, m6⟩ := hp.1 q (by rw [g1]; exact List.mem_map_of_mem hqh)
    exact ⟨⟨by rw [k4]; exact hp.2 x k3, k2, m3.time, m3.id, m3.host, m3.small⟩, m4, m5, m6⟩
  have hserve : serve st (served h) = .ok (e.db, e.replies) := by
    obtain ⟨done', written, -, h5⟩ := runInv_steps (runInv_startOn d st h) (moves_runs e1)
    have := h5.split
    rw [e2, e3] at this
    simp only [Option.toList_none, List.append_nil] at this
    subst this
    exact h5.served
  obtain ⟨hdlog, b0, hall1, hall2, -⟩ := lives_then l2 l3 hb hh hserve
  rw [e4] at hall2
  obtain ⟨b, -, b2, b3⟩ := sendInv_stream (sendInv_exec (fun h => h) (sendInv_new _ _ c) rfl hx3) List.nil_prefix
  have hbl : b.length < 2 ^ 32 := Nat.lt_of_le_of_lt b2.length_le (by rw [hx4]; exact hd)
  have hrh := replica_history l2 l3 hb hh (unh e1) e2 e3 (b := b) (by rw [e7, ← hx4]; exact b2)
  refine (?_ : ∃ n a, _) |>.elim fun n k => k.elim fun a k => ⟨hs, h, n, a, l1, g2, k⟩
  rw [List.flatMap_def, ← e5]
  have hwhole : s.site.proc.full.whole.file.failed = false → s.site.proc.full.whole.file.buf = [] → s.site.proc.full.whole.pending = [] →
      (receive (transfer s.site.proc.full.whole.file.disk)).2 = none := by
    intro q1 q2 q3
    rw [← e7] at q1 q2
    rw [← e6, List.map_eq_nil_iff] at q3
    have hw := written_length_on (unh e1) q1 q2
    rw [q3, show received h e = h.length by simp [received, e2], List.length_nil, Nat.sub_zero, List.take_length, hdlog, ← historyLog_append] at hw
    have hall : ∀ q ∈ hs.flatten ++ h, Replayable q := by
      intro q hq
      rcases List.mem_append.1 hq with hq | hq
      · obtain ⟨k, hk, hq⟩ := List.mem_flatten.1 hq
        exact l3 k hk q hq
      · exact hh q hq
    obtain ⟨bs, hp, hbs⟩ := historyLog_packed (h := hs.flatten ++ h) fun q hq => ⟨(hall q hq).1, (hall q hq).2.2.2⟩
    rw [← e7, hw]
    by_cases h0 : historyLog (hs.flatten ++ h) = []
    · rw [h0]; rfl
    · have := receive_transfer h0 (by rw [← hw, e7]; exact hd) []
      rw [List.append_nil, hbs, C30_roundtrip hp] at this
      rw [hbs, this]
  have hnone : (receive got).2 ≠ none → ∃ n a, n ≤ (hs.flatten ++ h).length ∧
      Trace DB.empty (((hs.flatten ++ h).take n).map Req.objs) (((trs.map fun tr => (doneIn (seenOver tr)).map fun x => x.2.2).flatten ++ e.replies).take n) a ∧
      (∀ envs envs' : Nat → Env, (∀ i, (envs' i).ord.Fair) → ∃ dbs, syncExternal envs envs' (some []) (some got) = .ok dbs ∧ Abs (dbs 1) a ∧
        ∀ i, i ≠ 1 → dbs i = State.empty) := by
    intro hn
    refine ⟨0, DB.empty, Nat.zero_le _, by rw [List.take_zero, List.take_zero]; exact .nil _, fun envs envs' _ => ⟨noDBs, ?_, abs_empty, fun _ _ => rfl⟩⟩
    rw [sync_fresh, fromMaster]
    generalize receive got = x at *
    obtain ⟨vs, err⟩ := x
    cases err with
    | none => exact absurd rfl hn
    | some e => rfl
  by_cases hn : (receive got).2 = none
  · rcases receive_prefix hbl (hg.trans b3) with hi | rfl
    · rw [hi] at hn; cases hn
    · obtain ⟨n, a, k1, k2, k3, k4⟩ := hrh
      refine ⟨n, a, k1, k2, fun envs envs' hf => ?_, ⟨b0, hall1, hall2⟩, hwhole, ?_⟩
      · obtain ⟨dbs, m1, m2⟩ := k3 envs' hf
        refine ⟨dbs, ?_, m2⟩
        rw [sync_fresh, fromMaster]
        rw [← receive_whole hbl] at m1
        generalize receive (transfer b) = x at *
        obtain ⟨vs, err⟩ := x
        cases hn
        exact m1
      · intro before s1 after hx5 hx6 htr _
        obtain ⟨hA, a1, a2, a3⟩ := now hx5
        obtain ⟨eA, f1, f2, f3, -, -, f6, f7⟩ := a3 env0
        have hwork : (hA ++ (atWork s1.site.proc.full.whole env0).toList).map Spec.recordOf = begunIn (wholeOf (fullOf (procOf (siteOf (before ++ [.flush (.flushed c)]))))) := by
          rw [a1, List.map_append, atWork]
          cases s1.site.proc.full.whole.begun <;> rfl
        have hlen : (doneIn (seenOver (procOf (siteOf before)))).length ≤ (hA ++ (atWork s1.site.proc.full.whole env0).toList).length := by
          have : (doneIn (netOf (wholeOf (fullOf (procOf (siteOf (before ++ [.flush (.flushed c)]))))))).length = hA.length := a2.length_eq
          rw [siteOf_append, procOf_append, fullOf_append, wholeOf_append, netOf_append,
            show netOf (wholeOf (fullOf (procOf (siteOf [.flush (.flushed c)])))) = [] from rfl, List.append_nil] at this
          rw [List.length_append, ← this]
          exact Nat.le_add_right _ _
        generalize hA ++ (atWork s1.site.proc.full.whole env0).toList = hA' at *
        have hpend : eA.pending.length = s1.site.proc.full.whole.pending.length := by rw [← f6, List.length_map]
        have hrec : received hA' eA = hA'.length := by simp [received, f2]
        -- the flush
        obtain ⟨s0, hx0, hx0'⟩ := hx5.split_snoc
        obtain ⟨-, y1, y2⟩ := C87_parts (fleet_calm hx0).1
        obtain ⟨-, z1, z2⟩ := C87_parts (fleet_calm hx5).1
        obtain ⟨hfail, hbuf, hpc, hstr⟩ : s1.hand.engine.file.failed = false ∧ s1.hand.engine.file.buf = [] ∧ s1.hand.pcs c = .flushed ∧ s1.hand.stream c = [] := by
          obtain ⟨hx0', -⟩ := hx0'
          have hinv := sendInv_exec (fun h => h) (sendInv_new _ _ c) rfl y1
          cases hx0' with
          | flush c' l t h' hp hl ht hm =>
            cases hm with
            | flush _ q1 q2 =>
              rw [SendInv, q1] at hinv
              exact ⟨q2, PFile.flush_done _ _ q2, by simp [upd], hinv.2⟩
        rw [z2, ← f7] at hfail hbuf
        have hwr := written_length_on (unh f1) hfail hbuf
        rw [hrec] at hwr
        have hx7 : Exec (Fleet.Step ω U) s1 after s := hx6.inv (P := fun tr s => Exec (Fleet.Step ω U) s1 tr s) .nil fun _ _ _ _ _ ih hs => ih.snoc hs.1
        obtain ⟨-, w1, -⟩ := fleet_parts (mirror_file z1) z2 hx7
        obtain ⟨b', p1, p2, p3⟩ := sendInv_stream (sendInv_exec (D := s1.hand.engine.file.disk) (c := c) (fun h => h)
          (by rw [SendInv, hpc]; exact ⟨List.prefix_rfl, hstr⟩) (mirror_file z1) w1)
          (by rw [z2, hx4]; exact fleet_grows hx7)
        have hbb : b = b' := by
          have hbl' : b'.length < 2 ^ 32 := Nat.lt_of_le_of_lt p2.length_le (by rw [hx4]; exact hd)
          rcases receive_prefix hbl' (hg.trans p3) with hi | hi
          · rw [hi] at hn; cases hn
          · have : le32 b.length ++ b = le32 b'.length ++ b' := hi
            exact (List.append_inj this (by simp [le32])).2
        subst hbb
        have hpre : hA'.map Spec.recordOf <+: h.map Spec.recordOf := by
          rw [← g1, hwork, htr, show before ++ .flush (.flushed c) :: after = (before ++ [.flush (.flushed c)]) ++ after by simp,
            siteOf_append (b := after), procOf_append, fullOf_append, wholeOf_append, begunIn_append]
          exact List.prefix_append _ _
        have hle : hA'.length ≤ h.length := by simpa using hpre.length_le
        have := k4 (hs.flatten.length + (hA'.length - eA.pending.length)) (by simp; omega) (by
          rw [List.take_append, List.take_of_length_le (Nat.le_add_right _ _), Nat.add_sub_cancel_left, historyLog_append, ← hdlog,
            history_records (a := h.take _) (b := hA'.take (hA'.length - eA.pending.length)), ← hwr, f7, ← z2]
          · exact p1.length_le
          · rw [List.map_take, List.map_take]
            obtain ⟨t, ht⟩ := hpre
            rw [← ht, List.take_append_of_le_length (by simp)])
        obtain ⟨-, -, -, hone, -⟩ := unhurried_inv_on (unh f1)
        omega
  · obtain ⟨n, a, k1, k2, k3⟩ := hnone hn
    exact ⟨n, a, k1, k2, k3, ⟨b0, hall1, hall2⟩, hwhole, fun _ _ _ _ _ _ h => absurd h hn⟩

/-! ### What users of the replica see -/

theorem fleet_users {trs : List (List Site.Ev)} (hl : SiteLives true U trs d) (hq : ∀ tr ∈ trs, Plainly (wholeOf (fullOf (procOf tr))))
    (hz : ∀ tr ∈ trs, ∀ x ∈ doneIn (seenOver (procOf tr)), Sized x.2.2) (hb : Begins d st) (hx : Exec (Fleet.Calmly ω U) (Fleet.new d st) tr s)
    (hp : Plainly (wholeOf (fullOf (procOf (siteOf tr))))) (hz' : ∀ x ∈ doneIn (seenOver (procOf (siteOf tr))), Sized x.2.2)
    (hbg : s.site.proc.full.whole.begun = none) (hd : s.site.proc.full.whole.file.disk.length < 2 ^ 32) {c : Nat} {got : Bytes} (hg : got <+: s.hand.stream c) :
    ∃ segs qs rs place b n, List.Forall₂ (fun tr (seg : List (List Resp) × List Resp) => ∃ place, OneDatabase U (deskOf tr) seg.1 seg.2 place) trs segs ∧
      OneDatabase U (deskOf (siteOf tr)) qs rs place ∧ Trace DB.empty (segs.flatMap (·.1) ++ qs) (segs.flatMap (·.2) ++ rs) b ∧
      Abs s.site.proc.full.whole.hub.db b ∧
      (∀ envs envs' : Nat → Env, (∀ i, (envs' i).ord.Fair) → ∃ dbs, syncExternal envs envs' (some []) (some got) = .ok dbs ∧
        ∀ m' ω' U' tr' s', Exec (Site.Step m' ω' U') (Site.new [] (dbs 1)) tr' s' → (∀ x ∈ doneIn (seenOver (procOf tr')), x.2.1.ord.Fair ∧ Sized x.2.2) →
          ∃ qs' rs' place' a, OneDatabase U' (deskOf tr') qs' rs' place' ∧
            Trace DB.empty ((segs.flatMap (·.1) ++ qs).take n ++ qs') ((segs.flatMap (·.2) ++ rs).take n ++ rs') a ∧
            Abs s'.proc.full.whole.hub.db a) ∧
      (s.site.proc.full.whole.file.failed = false → s.site.proc.full.whole.file.buf = [] → s.site.proc.full.whole.pending = [] →
        (receive (transfer s.site.proc.full.whole.file.disk)).2 = none) ∧
      (qs.length = (doneIn (seenOver (procOf (siteOf tr)))).length ∧ rs.length = qs.length ∧ (segs.flatMap (·.1)).length = (segs.flatMap (·.2)).length) ∧
      (∀ before after c i, tr = before ++ after → U c = true → i < (shownTo c (deskOf (siteOf before))).length →
        place c i < (doneIn (seenOver (procOf (siteOf before)))).length) ∧
      ∀ before s1 after, Exec (Fleet.Calmly ω U) (Fleet.new d st) (before ++ [.flush (.flushed c)]) s1 → Exec (Fleet.Calmly ω U) s1 after s →
        tr = before ++ .flush (.flushed c) :: after → (receive got).2 = none →
        (segs.flatMap (·.1)).length + (doneIn (seenOver (procOf (siteOf before)))).length ≤ n + s1.site.proc.full.whole.pending.length ∧
          s1.site.proc.full.whole.pending.length ≤ 1 := by
  obtain ⟨hs, h, n, a, h1, h2, h3, h4, h5, ⟨b, h6, h6'⟩, h8, h7⟩ := replica_state (site_procs hl) (fun tr ht => by
    obtain ⟨tr', ht', rfl⟩ := List.mem_map.1 ht
    exact hq tr' ht') hb hx hp hbg hd hg
  rw [List.forall₂_map_left_iff] at h1
  rw [List.flatMap_map] at h4 h6
  obtain ⟨segs, g1, g2, g3⟩ := site_segs hl hq hz h1
  obtain ⟨a0, k4⟩ : ∃ a0, Abs st a0 := by
    obtain ⟨envs, dbs, k1, k2, rfl⟩ := hb
    obtain ⟨-, a0, dbs', -, -, k3, k4⟩ := C84_invisible_partial (site_procs hl) (fun tr ht => by
      obtain ⟨tr', ht', rfl⟩ := List.mem_map.1 ht
      exact hq tr' ht') k1
    rw [k2] at k3
    cases k3
    exact ⟨a0, k4⟩
  obtain ⟨p1, -, -⟩ := C87_parts (fleet_calm hx).1
  obtain ⟨-, p2, p3⟩ := C86_parts p1
  have e1 : seenIn (serverOf (deskOf (siteOf tr))) = seenOver (procOf (siteOf tr)) := by rw [p3]; rfl
  obtain ⟨place, q1, q2⟩ := explains (U := U) k4 p2 (qs := h.map Req.objs) (by
    rw [e1]
    exact fun x hx => ⟨hp.2 x hx, hz' x hx⟩) (by
    rw [e1, List.forall₂_map_right_iff]
    exact h2.imp fun _ _ h => h.2)
  rw [e1] at q1
  refine ⟨segs, h.map Req.objs, (doneIn (seenOver (procOf (siteOf tr)))).map fun x => x.2.2, place, b, n, g1, q1, ?_, h6', ?_, h8, ?_, ?_, ?_⟩
  · rw [g2, g3, ← List.map_append]; exact h6
  · intro envs envs' hf
    obtain ⟨dbs, m1, m2, -⟩ := h5 envs envs' hf
    refine ⟨dbs, m1, fun m' ω' U' tr' s' hx' ho' => ?_⟩
    obtain ⟨r1, r2, r3⟩ := C86_parts hx'
    have e2 : seenIn (serverOf (deskOf tr')) = seenOver (procOf tr') := by rw [r3]; rfl
    obtain ⟨qs, rs, a', place', t1, t2, t3⟩ := C85_one_database (U := U') m2 r2 (by rw [e2]; exact ho')
    refine ⟨qs, rs, place', a', t3, ?_, t2⟩
    rw [g2, g3, ← List.map_append, ← List.map_take]
    exact trace_append h4 t1
  · have e2 := h2.length_eq
    refine ⟨by rw [List.length_map, e2], by rw [List.length_map, List.length_map, e2], ?_⟩
    rw [g2, g3, List.length_map]
    clear * - h1
    induction h1 with
    | nil => rfl
    | cons h _ ih => simp only [List.flatten_cons, List.length_append, List.flatMap_cons, ih, List.length_map, h.length_eq]
  · intro before after c' i htr hc hi
    obtain ⟨s0, x5, -⟩ := Exec.split (htr ▸ hx)
    obtain ⟨p1', -, -⟩ := C87_parts (fleet_calm x5).1
    obtain ⟨-, -, p3'⟩ := C86_parts p1'
    have e3 : seenIn (serverOf (deskOf (siteOf before))) = seenOver (procOf (siteOf before)) := by rw [p3']; rfl
    have := q2 (deskOf (siteOf before)) (deskOf (siteOf after)) c' i (by rw [htr, siteOf_append, deskOf_append]) hc hi
    rwa [e3] at this
  · intro before s1 after x1 x2 x3 x4
    have hlen : (segs.flatMap (·.1)).length = hs.flatten.length := by rw [g2, List.length_map]
    rw [hlen]
    exact h7 before s1 after x1 x2 x3 x4

/-- C87, for requests in UTF-8 other than LTRIM and SPOP and replies that can be framed, over any number of processes on the same file that were stopped well, and in
which every writer gets to the file before the engine begins with the next request. Whatever has arrived at a replica of what the present process sends – all of
it or a part –, the replica begins with what a database holds after some first of the requests that explain what all users of the processes see, and what
the users of the replica see is explained by that and the replica's own requests. When all of it has arrived, the requests of all lines whose replies
users have seen before the log was flushed for this replica are among those first ones, apart from at most one, which waits for its writer. What is missing from the
full claim is refuted by `C87_false`, `C34_false` and `C33_false`. -/
theorem C87_users_partial {trs : List (List Site.Ev)} (hl : SiteLives true U trs d) (hq : ∀ tr ∈ trs, Plainly (wholeOf (fullOf (procOf tr))))
    (hz : ∀ tr ∈ trs, ∀ x ∈ doneIn (seenOver (procOf tr)), Sized x.2.2) (hb : Begins d st) (hx : Exec (Fleet.Calmly ω U) (Fleet.new d st) tr s)
    (hp : Plainly (wholeOf (fullOf (procOf (siteOf tr))))) (hz' : ∀ x ∈ doneIn (seenOver (procOf (siteOf tr))), Sized x.2.2)
    (hbg : s.site.proc.full.whole.begun = none) (hd : s.site.proc.full.whole.file.disk.length < 2 ^ 32) {c : Nat} {got : Bytes} (hg : got <+: s.hand.stream c) :
    ∃ segs qs rs place b n, List.Forall₂ (fun tr (seg : List (List Resp) × List Resp) => ∃ place, OneDatabase U (deskOf tr) seg.1 seg.2 place) trs segs ∧
      OneDatabase U (deskOf (siteOf tr)) qs rs place ∧ Trace DB.empty (segs.flatMap (·.1) ++ qs) (segs.flatMap (·.2) ++ rs) b ∧
      Abs s.site.proc.full.whole.hub.db b ∧
      (∀ envs envs' : Nat → Env, (∀ i, (envs' i).ord.Fair) → ∃ dbs, syncExternal envs envs' (some []) (some got) = .ok dbs ∧
        ∀ m' ω' U' tr' s', Exec (Site.Step m' ω' U') (Site.new [] (dbs 1)) tr' s' → (∀ x ∈ doneIn (seenOver (procOf tr')), x.2.1.ord.Fair ∧ Sized x.2.2) →
          ∃ qs' rs' place' a, OneDatabase U' (deskOf tr') qs' rs' place' ∧
            Trace DB.empty ((segs.flatMap (·.1) ++ qs).take n ++ qs') ((segs.flatMap (·.2) ++ rs).take n ++ rs') a ∧
            Abs s'.proc.full.whole.hub.db a) ∧
      ∀ before s1 after, Exec (Fleet.Calmly ω U) (Fleet.new d st) (before ++ [.flush (.flushed c)]) s1 → Exec (Fleet.Calmly ω U) s1 after s →
        tr = before ++ .flush (.flushed c) :: after → (receive got).2 = none →
        (segs.flatMap (·.1)).length ≤ n + s1.site.proc.full.whole.pending.length ∧ s1.site.proc.full.whole.pending.length ≤ 1 ∧
        ∀ c' i, U c' = true → i < (shownTo c' (deskOf (siteOf before))).length →
          (segs.flatMap (·.1)).length + place c' i < n + s1.site.proc.full.whole.pending.length := by
  obtain ⟨segs, qs, rs, place, b, n, h1, h2, h3, h4, h5, -, -, h6, h7⟩ := fleet_users hl hq hz hb hx hp hz' hbg hd hg
  refine ⟨segs, qs, rs, place, b, n, h1, h2, h3, h4, h5, fun before s1 after x1 x2 x3 x4 => ?_⟩
  obtain ⟨y1, y2⟩ := h7 before s1 after x1 x2 x3 x4
  refine ⟨by omega, y2, fun c' i hc hi => ?_⟩
  have := h6 before (.flush (.flushed c) :: after) c' i x3 hc hi
  omega

/-! ### Serving a replica -/

theorem absent_inv {R : Engine → Engine → Prop} {e : Engine} {h : Master.Sys} {ls : List Master.Ev} (hx : Exec (Master.Step R ω) (Master.new e true) ls h) (c : Nat)
    (hc : h.pcs c = .absent) : h.closed c = false ∧ h.stream c = [] := by
  revert hc
  refine hx.inv (P := fun _ h => h.pcs c = .absent → h.closed c = false ∧ h.stream c = []) (fun _ => ⟨rfl, rfl⟩) ?_
  intro ls h1 l h2 _ ih hs
  cases hs <;> simp only [Master.leave, upd] at * <;> grind

/-- A step at a replica other than a flush. -/
def Aside (ω : Nat → Nat) (h : Master.Sys) (l : Master.Ev) (h' : Master.Sys) : Prop := Fleet.aside h l ∧ Master.Step Fleet.still ω h l h'

theorem aside_exec {t : Site.Sys} {h h' : Master.Sys} {ls : List Master.Ev} (hu : t.gone = false ∧ t.proc.up) (hx : Exec (Aside ω) h ls h') :
    Exec (Fleet.Calmly ω U) ⟨t, h⟩ (ls.map .hand) ⟨t, h'⟩ := by
  refine hx.inv (P := fun ls h' => Exec (Fleet.Calmly ω U) ⟨t, h⟩ (ls.map .hand) ⟨t, h'⟩) .nil ?_
  intro ls h1 l h2 _ ih hs
  rw [List.map_append]
  exact ih.snoc ⟨.hand (s := ⟨t, h1⟩) l h2 hs.1 (.inl hu) hs.2, by simp [siteOf, procOf, fullOf, wholeOf]⟩

theorem serve_begin {h : Master.Sys} (ha : h.accepting = true) (hf : h.file = true) {c : Nat} (hc : h.pcs c = .absent) :
    ∃ h', Exec (Aside ω) h [.accepted c, .entered c, .listed c, .created c] h' ∧ h'.pcs c = .created ∧ h'.stream = h.stream ∧ h'.closed = h.closed ∧
      h'.engine = h.engine ∧ ∀ c', c' ≠ c → h'.pcs c' = h.pcs c' := by
  refine ⟨_, .cons ⟨trivial, .accept c ha hc⟩ (.cons ⟨trivial, .enter c (by simp [upd]) hf⟩ (.cons ⟨trivial, .list c (by simp [upd])⟩
    (.cons ⟨trivial, .create c (by simp [upd])⟩ .nil))), by simp [upd], rfl, rfl, rfl, fun c' hc' => by simp [upd, hc']⟩

theorem serve_end {h : Master.Sys} {c : Nat} (hc : h.pcs c = .flushed) (hcl : h.closed c = false) (hs : h.stream c = []) :
    ∃ h', Exec (Aside ω) h [.opened c, .copied c, .prepared c, .wrote c, .finished c] h' ∧ h'.pcs c = .left ∧ h'.stream c = transfer h.engine.file.disk ∧
      h'.engine = h.engine ∧ ∀ c', c' ≠ c → h'.pcs c' = h.pcs c' ∧ h'.stream c' = h.stream c' ∧ h'.closed c' = h.closed c' := by
  refine ⟨_, .cons ⟨trivial, .openRaw c hc⟩ (.cons ⟨trivial, .copy c (by simp [upd])⟩ (.cons ⟨trivial, .prepare c h.engine.file.disk (by simp [upd])⟩
    (.cons ⟨trivial, .send c h.engine.file.disk 0 (transfer h.engine.file.disk).length (by simp [upd]) hcl (by simp)⟩
    (.cons ⟨trivial, .finish c h.engine.file.disk (0 + (transfer h.engine.file.disk).length) (by simp [upd]) (by simp)⟩ .nil)))), ?_, ?_, ?_, ?_⟩
  · simp [Master.leave, upd]
  · simp [Master.leave, upd, hs]
  · rfl
  · intro c' hc'
    simp [Master.leave, upd, hc']

/-- C87: when the process is there and accepts replicas, and the disk takes what is to be written, a replica that connects can be served to the end. It then gets
all of the log, and nobody else notices: of the server only the log file changes, which is flushed. -/
theorem C87_possible (hx : Exec (Fleet.Step ω U) (Fleet.new d st) tr s) (hu : s.up) (ha : s.hand.accepting = true) {c : Nat} (hc : s.hand.pcs c = .absent)
    (hw : (s.site.proc.full.whole.file.flush ω).failed = false) :
    ∃ before after s1 s', Exec (Fleet.Calmly ω U) s (before ++ [.flush (.flushed c)]) s1 ∧ Exec (Fleet.Calmly ω U) s1 after s' ∧
      siteOf before = [] ∧ siteOf after = [] ∧ .finished c ∈ handOf after ∧ s'.site = s1.site ∧
      s1.site.proc.full = { s.site.proc.full with whole := { s.site.proc.full.whole with file := s.site.proc.full.whole.file.flush ω } } ∧
      s1.site.terms = s.site.terms ∧ s'.hand.pcs c = .left ∧ s'.hand.stream c = transfer s1.site.proc.full.whole.file.disk ∧
      ∀ c', c' ≠ c → s'.hand.pcs c' = s.hand.pcs c' ∧ s'.hand.stream c' = s.hand.stream c' ∧ s'.hand.closed c' = s.hand.closed c' := by
  obtain ⟨-, h1, h2⟩ := C87_parts hx
  have hfile : s.hand.file = true := mirror_file h1
  obtain ⟨hcl, hst⟩ := absent_inv h1 c hc
  obtain ⟨h3, x1, y1, y2, y3, y4, y5⟩ := serve_begin (ω := ω) ha hfile hc
  obtain ⟨hg, hup⟩ := hu
  have z1 := aside_exec (U := U) ⟨hg, hup⟩ x1
  let t : Site.Sys := ⟨{ s.site.proc with
      full := { s.site.proc.full with whole := { s.site.proc.full.whole with file := s.site.proc.full.whole.file.flush ω } }
      stop := { s.site.proc.stop with log := s.site.proc.stop.log.flush ω } }, s.site.terms, false⟩
  have hfl : Site.Step true ω U s.site Fleet.flushes t :=
    .proc _ _ hg (by simp [Site.inside, Desk.fits]) (.both _ _ .flushed _ _ hup rfl .replica ⟨by simp [Proc.requestMoves], by simp [Proc.responseMoves],
      by simp [Proc.engineWaits], by simp [Proc.engineTakes]⟩ (.whole _ _ rfl (.flush hup.1.1 hup.1.2)) ⟨hup.2.1, hup.2.2, .replicaFlush rfl rfl⟩)
  have hm : Master.Step Fleet.still ω h3 (.flushed c) { h3 with engine := { h3.engine with file := h3.engine.file.flush ω }, pcs := upd h3.pcs c .flushed } :=
    .flush c y1 (by rw [y4, h2]; exact hw)
  obtain ⟨h4, x2, v1, v2, v3, v4⟩ := serve_end (ω := ω) (h := { h3 with engine := { h3.engine with file := h3.engine.file.flush ω }, pcs := upd h3.pcs c .flushed }) (c := c)
    (by simp [upd]) (by rw [show _ = h3.closed c from rfl, y3]; exact hcl) (by rw [show _ = h3.stream c from rfl, y2]; exact hst)
  have z2 := aside_exec (t := t) (U := U) ⟨rfl, ⟨hup.1, hup.2⟩⟩ x2
  refine ⟨_, _, _, _, z1.snoc ⟨.flush (s := ⟨s.site, h3⟩) c _ t _ y1 (.inl rfl) hfl hm, by simp [siteOf, procOf, fullOf, wholeOf, Fleet.flushes]⟩, z2, rfl, rfl, by simp [handOf], rfl, rfl, rfl, v1, ?_, ?_⟩
  · rw [v2, show _ = (h3.engine.file.flush ω) from rfl, y4, h2]
  · intro c' hc'
    obtain ⟨w1, w2, w3⟩ := v4 c' hc'
    exact ⟨w1.trans (by simp [upd, hc', y5]), w2.trans (congrFun y2 c'), w3.trans (congrFun y3 c')⟩

theorem flushed_unfailed {p : PFile} (h : (p.flush ω).failed = false) : (p.flush ω).buf = [] := PFile.flush_done ω p h

/-- C87, for requests in UTF-8 other than LTRIM and SPOP and replies that can be framed, over any number of processes on the same file that were stopped well: when the
present process has nothing to do, accepts replicas, and the disk takes what is to be written, a replica that connects can be served to the end without
anybody else noticing, and what its users then see is explained by a database that has been asked everything that explains what all users of the
processes have seen. -/
theorem C87_served_partial {trs : List (List Site.Ev)} (hl : SiteLives true U trs d) (hq : ∀ tr ∈ trs, Plainly (wholeOf (fullOf (procOf tr))))
    (hz : ∀ tr ∈ trs, ∀ x ∈ doneIn (seenOver (procOf tr)), Sized x.2.2) (hb : Begins d st) (hx : Exec (Fleet.Calmly ω U) (Fleet.new d st) tr s)
    (hp : Plainly (wholeOf (fullOf (procOf (siteOf tr))))) (hz' : ∀ x ∈ doneIn (seenOver (procOf (siteOf tr))), Sized x.2.2)
    (hbg : s.site.proc.full.whole.begun = none) (hpe : s.site.proc.full.whole.pending = []) (hu : s.up) (ha : s.hand.accepting = true) {c : Nat}
    (hc : s.hand.pcs c = .absent) (hw : (s.site.proc.full.whole.file.flush ω).failed = false) (hd : (s.site.proc.full.whole.file.flush ω).disk.length < 2 ^ 32) :
    ∃ after s', Exec (Fleet.Calmly ω U) s after s' ∧ siteOf after = [Fleet.flushes] ∧ s'.site.terms = s.site.terms ∧
      (∀ c', c' ≠ c → s'.hand.stream c' = s.hand.stream c' ∧ s'.hand.closed c' = s.hand.closed c') ∧
      ∃ segs qs rs place b, List.Forall₂ (fun tr (seg : List (List Resp) × List Resp) => ∃ place, OneDatabase U (deskOf tr) seg.1 seg.2 place) trs segs ∧
        OneDatabase U (deskOf (siteOf (tr ++ after))) qs rs place ∧ Trace DB.empty (segs.flatMap (·.1) ++ qs) (segs.flatMap (·.2) ++ rs) b ∧
        Abs s.site.proc.full.whole.hub.db b ∧
        ∀ envs envs' : Nat → Env, (∀ i, (envs' i).ord.Fair) → ∃ dbs, syncExternal envs envs' (some []) (some (s'.hand.stream c)) = .ok dbs ∧
          ∀ m' ω' U' tr' s', Exec (Site.Step m' ω' U') (Site.new [] (dbs 1)) tr' s' → (∀ x ∈ doneIn (seenOver (procOf tr')), x.2.1.ord.Fair ∧ Sized x.2.2) →
            ∃ qs' rs' place' a, OneDatabase U' (deskOf tr') qs' rs' place' ∧
              Trace DB.empty (segs.flatMap (·.1) ++ qs ++ qs') (segs.flatMap (·.2) ++ rs ++ rs') a ∧ Abs s'.proc.full.whole.hub.db a := by
  obtain ⟨before, after, s1, s', h1, h2, h3, h4, -, h5, h6, h7, h8, h9, h10⟩ := C87_possible (U := U) (fleet_calm hx).1 hu ha hc hw
  have e1 : siteOf (tr ++ (before ++ .flush (.flushed c) :: after)) = siteOf tr ++ [Fleet.flushes] := by
    rw [siteOf_append, siteOf_append, h3, show Fleet.Ev.flush (.flushed c) :: after = [.flush (.flushed c)] ++ after from rfl, siteOf_append, h4]; rfl
  have e2 : seenOver (procOf (siteOf tr ++ [Fleet.flushes])) = seenOver (procOf (siteOf tr)) := by
    rw [procOf_append, seenOver_append]; simp [procOf, Fleet.flushes, seenOver, fullOf, seenIn, wholeOf, netOf]
  have e3 : wholeOf (fullOf (procOf (siteOf tr ++ [Fleet.flushes]))) = wholeOf (fullOf (procOf (siteOf tr))) ++ [.flushed] := by
    rw [procOf_append, fullOf_append, wholeOf_append]; rfl
  have hx' : Exec (Fleet.Calmly ω U) (Fleet.new d st) (tr ++ (before ++ .flush (.flushed c) :: after)) s' := by
    refine hx.append ?_
    have := h1.append h2
    rwa [List.append_assoc] at this
  have hsite : s'.site.proc.full.whole = { s.site.proc.full.whole with file := s.site.proc.full.whole.file.flush ω } := by rw [h5, h6]
  obtain ⟨segs, qs, rs, place, b, n, g1, g2, g3, g4, g5, g6, ⟨g7, g8, g9⟩, -, g10⟩ := fleet_users hl hq hz hb hx' (c := c) (got := s'.hand.stream c)
    (by
      rw [e1, e3]
      refine ⟨fun q hq => hp.1 q ?_, fun x hx => hp.2 x ?_⟩
      · rw [begunIn_append, show begunIn [.flushed] = [] from rfl, List.append_nil] at hq; exact hq
      · rw [netOf_append, show netOf [.flushed] = [] from rfl, List.append_nil] at hx; exact hx)
    (by rw [e1, e2]; exact hz') (by rw [hsite]; exact hbg) (by rw [hsite]; exact hd) List.prefix_rfl
  have hrec : (receive (s'.hand.stream c)).2 = none := by
    rw [h9, ← h5]
    exact g6 (by rw [hsite]; exact hw) (by rw [hsite]; exact flushed_unfailed hw) (by rw [hsite]; exact hpe)
  obtain ⟨k1, -⟩ := g10 (tr ++ before) s1 after (by rw [List.append_assoc]; exact hx.append h1) h2 (by simp) hrec
  rw [show s1.site.proc.full.whole.pending = [] by rw [h6]; exact hpe, siteOf_append, h3, List.append_nil] at k1
  rw [e1, e2] at g7
  have hn : (segs.flatMap (·.1) ++ qs).length ≤ n := by simp only [List.length_append, List.length_nil] at *; omega
  have hn' : (segs.flatMap (·.2) ++ rs).length ≤ n := by simp only [List.length_append] at *; omega
  rw [List.take_of_length_le hn, List.take_of_length_le hn'] at g5
  refine ⟨before ++ .flush (.flushed c) :: after, s', ?_, ?_, by rw [h5]; exact h7, fun c' hc' => (h10 c' hc').2, segs, qs, rs, place, b, g1, g2, g3, ?_, g5⟩
  · have := h1.append h2
    rwa [List.append_assoc] at this
  · have := e1
    rw [siteOf_append] at this
    exact List.append_cancel_left this
  · rw [hsite] at g4; exact g4

/-! ### What a replica does not show, and examples -/

/-- A process to which no replica has come yet. -/
theorem site_fleet {ls : List Site.Ev} {t : Site.Sys} (hx : Exec (Site.Step true ω U) (Site.new d st) ls t) (hn : .flushed ∉ wholeOf (fullOf (procOf ls))) :
    Exec (Fleet.Step ω U) (Fleet.new d st) (ls.map .site) ⟨t, Fleet.withFile (Master.new (Engine.start d []) true) t.proc.full.whole.file⟩ := by
  revert hn
  refine hx.inv (P := fun ls t => .flushed ∉ wholeOf (fullOf (procOf ls)) → Exec (Fleet.Step ω U) (Fleet.new d st) (ls.map .site)
    ⟨t, Fleet.withFile (Master.new (Engine.start d []) true) t.proc.full.whole.file⟩) (fun _ => .nil) ?_
  intro ls t e t' _ ih hs hn
  rw [procOf_append, fullOf_append, wholeOf_append, List.mem_append, not_or] at hn
  rw [List.map_append]
  exact (ih hn.1).snoc (.site (s := ⟨t, _⟩) e t' (fun he => hn.2 (by rw [he]; simp [procOf, Fleet.flushes, fullOf, wholeOf])) hs)

/-- With one request nobody is overtaken. -/
theorem fleet_one_calm (hx : Exec (Fleet.Step ω U) (Fleet.new d st) tr s) (hb : (begunIn (wholeOf (fullOf (procOf (siteOf tr))))).length ≤ 1) :
    Exec (Fleet.Calmly ω U) (Fleet.new d st) tr s := by
  revert hb
  refine hx.inv (P := fun tr s => (begunIn (wholeOf (fullOf (procOf (siteOf tr))))).length ≤ 1 → Exec (Fleet.Calmly ω U) (Fleet.new d st) tr s) (fun _ => .nil) ?_
  rintro tr s1 e s2 hx ih hs hb
  rw [siteOf_append, procOf_append, fullOf_append, wholeOf_append, begunIn_append, List.length_append] at hb
  refine (ih (by omega)).snoc ⟨hs, fun q hq => ?_⟩
  have h1 : q ∈ begunIn (wholeOf (fullOf (procOf (siteOf [e])))) := by
    simp only [begunIn, List.mem_filterMap]
    exact ⟨_, hq, rfl⟩
  have h2 := List.length_pos_of_mem h1
  have h3 : begunIn (wholeOf (fullOf (procOf (siteOf tr)))) = [] := List.length_eq_zero_iff.1 (by omega)
  have h4 := pending_begun (full_exec (proc_exec (C86_parts (C87_parts hx).1).1).1).1
  rw [h3] at h4
  exact List.eq_nil_iff_forall_not_mem.2 fun q hq => by cases h4 q hq

/-- The full claim, for one user of the process, who is its only client and whose lines are all answered when a replica connects, and one of the replica. If the
replica is served to the end, nothing has failed at the file, and the replica reports no error, then the replies are those of one database. -/
def ShownAtReplica : Prop := ∀ (ω : Nat → Nat) (tr after : List Fleet.Ev) (s s' : Fleet.Sys) (c : Nat) (envs envs' : Nat → Env) (dbs : DBs) (tr' : List Site.Ev) (t : Site.Sys)
    (wss wss' : List (List Bytes)),
  Exec (Fleet.Step ω (· == 7)) (Fleet.new [] State.empty) tr s → s.hand.pcs c = .absent → Exec (Fleet.Step ω (· == 7)) s after s' → .finished c ∈ handOf after →
  s'.site.proc.full.whole.file.failed = false → typedBy 7 (deskOf (siteOf after)) = [] → (∀ i, (envs' i).ord.Fair) → (receive (s'.hand.stream c)).2 = none →
  syncExternal envs envs' (some []) (some (s'.hand.stream c)) = .ok dbs → Exec (Site.Step true ω (· == 7)) (Site.new [] (dbs 1)) tr' t →
  (∀ c, c ≠ 7 → askedBy c (seenOver (procOf (siteOf (tr ++ after)))) = [] ∧ askedBy c (seenOver (procOf tr')) = []) →
  List.Forall₂ Words (typedBy 7 (deskOf (siteOf tr))) wss → List.Forall₂ Words (typedBy 7 (deskOf tr')) wss' →
  (shownTo 7 (deskOf (siteOf tr))).length = wss.length → (shownTo 7 (deskOf tr')).length = wss'.length →
  ∃ a, Trace DB.empty ((wss ++ wss').map fun ws => ws.map .bulk) (shownTo 7 (deskOf (siteOf tr)) ++ shownTo 7 (deskOf tr')) a

/-- C87: it is not so: a user sets a key and sees `OK` before the writer has been to the file. A replica that connects then is served without any error, and a user there
who asks for the key sees that there is none. -/
theorem C87_false : ¬ ShownAtReplica := by
  intro hk
  obtain ⟨ptr, p, hq, h1, hseen, h2, hu, -, h3, h4, -, h5, h6, h7, h8, h9, hsm⟩ := one_proc_quiet (m := true) (ω := fun _ => 100000) (d := []) (st := State.empty) setBytes_parse rfl
  obtain ⟨tr, s, l, g1, rfl, rfl, g4, g5, g6, g7⟩ := one_user abs_empty set_typable .simple h1 hseen hsm
  have x := site_fleet g1 hq
  have hfl : (s.proc.full.whole.file.flush fun _ => 100000).failed = false ∧ (s.proc.full.whole.file.flush fun _ => 100000).disk = [] := by
    rw [h7]; decide +kernel
  obtain ⟨before, after, s1, s', y1, y2, y3, y4, y5, y6, y7, -, -, y8, -⟩ := C87_possible (c := 0) x ⟨g4, hu⟩ rfl rfl hfl.1
  have calmly : ∀ {a b : Fleet.Sys} {es : List Fleet.Ev}, Exec (Fleet.Calmly (fun _ => 100000) (· == 7)) a es b → Exec (Fleet.Step (fun _ => 100000) (· == 7)) a es b :=
    fun h => h.inv (P := fun es b => Exec (Fleet.Step (fun _ => 100000) (· == 7)) _ es b) .nil fun _ _ _ _ _ ih hs => ih.snoc hs.1
  have hsite : siteOf (tr.map .site) = tr := by simp [siteOf, List.filterMap_map]
  have hafter : siteOf ((before ++ [.flush (.flushed 0)]) ++ after) = [Fleet.flushes] := by rw [siteOf_append, siteOf_append, y3, y4]; rfl
  have hstream : s'.hand.stream 0 = transfer [] := by rw [y8, y7]; exact congrArg transfer hfl.2
  obtain ⟨ptr', p', -, k1, k2, -, -, -, -, -, -, -, -, -, -, -, ksm⟩ := one_proc_quiet (m := true) (ω := fun _ => 100000) (d := []) (st := State.empty) getBytes_parse rfl
  obtain ⟨tr', t, l', j1, rfl, rfl, -, j5, j6, j7⟩ := one_user abs_empty get_typable .nullBulk k1 k2 ksm
  obtain ⟨a, ha⟩ := hk (fun _ => 100000) (tr.map .site) ((before ++ [.flush (.flushed 0)]) ++ after) _ s' 0 (fun _ => env0) (fun _ => env0) noDBs tr' t
    [[b!"set", b!"k", b!"1"]] [[b!"get", b!"k"]] x rfl (calmly (y1.append y2)) (by rw [handOf_append]; simp [y5])
    (by rw [y6, y7]; exact hfl.1) (by rw [hafter]; rfl) (fun _ => env0_fair) (by rw [hstream]; rfl) (by rw [hstream]; rfl) j1
    (by
      intro c hc
      rw [siteOf_append, hsite, hafter, procOf_append, seenOver_append, hseen, k2]
      simp [askedBy, Ne.symm hc, seenOver, procOf, Fleet.flushes, fullOf, seenIn, wholeOf, netOf])
    (by rw [hsite, g5]; exact .cons g6 .nil) (by rw [j5]; exact .cons j6 .nil) (by rw [hsite, g7]; rfl) (by rw [j7]; rfl)
  rw [hsite, g7, j7] at ha
  exact set_get_nil ha

/-- What meets the hypotheses of `C87_served_partial`, those of `C87_possible` and, when the replica has been served, those of `C87_users_partial` and `C87_parts`: a
user sets a key, sees `OK`, and the writer writes. A replica connects and is served, and a user of it who asks for the key sees it. -/
example : ∃ tr s l after s' dbs tr' t l', Exec (Fleet.Calmly (fun _ => 100000) (· == 7)) (Fleet.new [] State.empty) tr s ∧
    Plainly (wholeOf (fullOf (procOf (siteOf tr)))) ∧ (∀ x ∈ doneIn (seenOver (procOf (siteOf tr))), Sized x.2.2) ∧ s.site.proc.full.whole.begun = none ∧
    s.site.proc.full.whole.pending = [] ∧ s.up ∧ s.hand.accepting = true ∧ s.hand.pcs 0 = .absent ∧
    (s.site.proc.full.whole.file.flush fun _ => 100000).failed = false ∧ (s.site.proc.full.whole.file.flush fun _ => 100000).disk.length < 2 ^ 32 ∧
    typedBy 7 (deskOf (siteOf tr)) = [l] ∧ Words l [b!"set", b!"k", b!"1"] ∧ shownTo 7 (deskOf (siteOf tr)) = [.simple b!"OK"] ∧
    Exec (Fleet.Calmly (fun _ => 100000) (· == 7)) s after s' ∧ .finished 0 ∈ handOf after ∧
    syncExternal (fun _ => env0) (fun _ => env0) (some []) (some (s'.hand.stream 0)) = .ok dbs ∧
    Exec (Site.Step true (fun _ => 100000) (· == 7)) (Site.new [] (dbs 1)) tr' t ∧
    typedBy 7 (deskOf tr') = [l'] ∧ Words l' [b!"get", b!"k"] ∧ shownTo 7 (deskOf tr') = [.bulk b!"1"] := by
  obtain ⟨ptr, p, hq, h1, hseen, h2, hu, -, h3, h4, hhas, h5, h6, h7, h8, h9, hsm⟩ := one_proc_quiet (m := true) (ω := fun _ => 100000) (d := []) (st := State.empty) setBytes_parse rfl
  obtain ⟨dr, p1, x1, k1, -, q3, q4, q5, u1, ⟨hd1, hd2⟩, hq2, -, q6⟩ := proc_drain (m := true) (ω := fun _ => 100000) hu
  have hfile : p1.full.whole.file = writeRecord (fun _ => 100000) (PFile.new []) set1 := by rw [q6, h8, h7]; rfl
  have hseen' : seenOver (ptr ++ dr) = oneTrace setBytes [b!"set", b!"k", b!"1"] (.simple b!"OK") := by rw [seenOver_append, hseen, hd1]; rfl
  have hbeg : begunIn (wholeOf (fullOf (ptr ++ dr))) = [(stamp0, req [b!"set", b!"k", b!"1"])] := by
    rw [fullOf_append, wholeOf_append, begunIn_append, h9, still_begun (proc_run x1) hhas hd1]; rfl
  obtain ⟨tr, s, l, g1, g2, g3, g4, g5, g6, g7⟩ := one_user abs_empty set_typable .simple (h1.append x1) hseen'
    (by intro c; rw [fullOf_append, lineOf_append, hd2, List.append_nil]; exact hsm c)
  have hsite : siteOf (tr.map .site) = tr := by simp [siteOf, List.filterMap_map]
  have x := site_fleet g1 (by rw [g2, fullOf_append, wholeOf_append]; exact fun hm => (List.mem_append.1 hm).elim hq hq2)
  have hfl : (s.proc.full.whole.file.flush fun _ => 100000).failed = false ∧ (s.proc.full.whole.file.flush fun _ => 100000).disk = historyLog [set1] := by
    rw [g3, hfile]; decide +kernel
  have hup : s.gone = false ∧ s.proc.up := ⟨g4, by rw [g3]; exact u1⟩
  obtain ⟨before, after, s1, s', y1, y2, y3, y4, y5, y6, y7, -, -, y8, -⟩ := C87_possible (c := 0) x hup rfl rfl hfl.1
  have hstream : s'.hand.stream 0 = transfer (historyLog [set1]) := by rw [y8, y7]; exact congrArg transfer hfl.2
  have hsync : syncExternal (fun _ => env0) (fun _ => env0) (some []) (some (s'.hand.stream 0)) =
      .ok (fun j => if j = 1 then ⟨[(b!"k", Str.new b!"1")], [], [], []⟩ else State.empty) := by
    obtain ⟨bs, hp, hbs⟩ := historyLog_packed (h := [set1]) (by simpa using ⟨set1_ok.1, set1_ok.2.2.2⟩)
    rw [hstream, sync_fresh, hbs, C36_replays hp (by rw [← hbs]; decide +kernel)]
    rw [show historyRecords [set1] = [reqLog set1] from rfl, build_cons set1_ok.1.wire (c := .set b!"k" b!"1") rfl]
    rfl
  obtain ⟨a1, -, t2⟩ := serve_trace (reqs := [(env0, req [b!"set", b!"k", b!"1"])]) abs_empty (by simpa using env0_fair) rfl
  obtain ⟨ptr', p', -, j1, j2, -, -, -, -, -, -, -, -, -, -, -, jsm⟩ := one_proc_quiet (m := true) (ω := fun _ => 100000) (d := [])
    (st := ⟨[(b!"k", Str.new b!"1")], [], [], []⟩) getBytes_parse rfl
  obtain ⟨tr', t, l', i1, rfl, rfl, -, i5, i6, i7⟩ := one_user t2 get_typable (.bulk (by decide)) j1 j2 jsm
  refine ⟨tr.map .site, _, l, (before ++ [.flush (.flushed 0)]) ++ after, s', _, tr', t, l', fleet_one_calm x ?_, ?_, ?_, ?_, ?_, hup, rfl, rfl, hfl.1, ?_, ?_, g6, ?_, y1.append y2, ?_,
    hsync, i1, i5, i6, i7⟩
  · rw [hsite, g2, hbeg]; simp
  · rw [hsite, g2]; exact one_plain hseen' hbeg set1_ok
  · rw [hsite, g2, hseen']; simp only [doneIn, List.forall_mem_cons, List.not_mem_nil, false_imp_iff, implies_true, and_true]; exact .simple
  · show s.proc.full.whole.begun = none; rw [g3, q5, h4]
  · show s.proc.full.whole.pending = []; rw [g3, k1]
  · show (s.proc.full.whole.file.flush fun _ => 100000).disk.length < 2 ^ 32; rw [hfl.2]; decide +kernel
  · rw [hsite, g5]
  · rw [hsite, g7]
  · rw [handOf_append]; simp [y5]

end Verif.Props
