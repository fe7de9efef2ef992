import Verif.Spec.Whole
import Verif.Props.Hub
import Verif.Props.Net
import Verif.Props.Lives

/-! # C81 – the whole server, from the bytes of its clients to the bytes of its file -/

namespace Verif.Props

open Spec
open Fut (upd)

variable {ω : Nat → Nat} {d : Bytes} {st : State}

theorem netOf_append (a b : List Whole.Ev) : netOf (a ++ b) = netOf a ++ netOf b := List.filterMap_append

theorem begunIn_append (a b : List Whole.Ev) : begunIn (a ++ b) = begunIn a ++ begunIn b := List.filterMap_append

/-- The request the engine is at has not changed since it began with it. -/
def Begun (w : Whole.Sys) : Prop := ∀ q, w.begun = some q → ∃ n m id, w.hub.engine = .has (n, m) ∧ Pipe.parseRequest m = some (id, q.2)

/-- The whole server and the server of C70. -/
structure Seen (st : State) (w : Whole.Sys) (n : Net.Sys) : Prop where
  hub : ∃ tr, Exec Hub.Step (Hub.new st) tr w.hub ∧ Exec Pipe.Step (Pipe.new st) (seenOf tr) n.pipe
  sim : Sim w.hub n.pipe
  feeds : n.feeds = w.feeds
  out : n.out = w.out
  dead : n.dead = w.dead
  begun : Begun w

theorem seen_new : Seen st (Whole.new d st) (Net.new st) := ⟨⟨[], .nil, .nil⟩, sim_new, rfl, rfl, rfl, by simp [Begun, Whole.new]⟩

theorem between_inside {e : Pipe.Ev} (h : Whole.between e = true) : Net.inside e = true := by
  cases e <;> simp_all [Whole.between, Net.inside]

/-- A step of the hub that is not the execution of a request leaves the engine at the request it has begun with. -/
theorem engine_stays {h h' : Hub.Sys} {e : Hub.Ev} {n : Nat} {m : Msg} {id : Bytes} {objs : List Resp} (hs : Hub.Step h e h') (hm : h.engine = .has (n, m))
    (hp : Pipe.parseRequest m = some (id, objs)) (he : ∀ n env r, e ≠ .seen (.executed n env r)) : h'.engine = .has (n, m) := by
  cases hs <;> simp_all

theorem begun_step {w w' : Whole.Sys} {l : Whole.Ev} (hb : Begun w) (hst : Whole.Step ω w l w') : Begun w' := by
  cases hst with
  | feed | kill | record | flush => exact hb
  | read c k o x h' k1 k2 k3 =>
    intro q hq
    obtain ⟨a, m, id, e1, e2⟩ := hb q hq
    exact ⟨a, m, id, engine_stays k3 e1 e2 (by simp), e2⟩
  | bus e h' k1 k2 k3 =>
    intro q hq
    obtain ⟨a, m, id, e1, e2⟩ := hb q hq
    exact ⟨a, m, id, engine_stays k3 e1 e2 (by rintro _ _ _ rfl; simp [Whole.hidden] at k2), e2⟩
  | pass e h' k1 k2 k3 =>
    intro q hq
    obtain ⟨a, m, id, e1, e2⟩ := hb q hq
    exact ⟨a, m, id, engine_stays k3 e1 e2 (by rintro _ _ _ ⟨⟩; simp [Whole.between] at k2), e2⟩
  | receive a m id q k1 k2 k3 k4 k5 =>
    rintro q' ⟨⟩
    exact ⟨a, m, id, k3, k4⟩
  | execute => simp [Begun]
  | crash a env h' k1 k2 k3 =>
    intro q hq
    obtain ⟨a, m, id, e1, e2⟩ := hb q hq
    exact ⟨a, m, id, engine_stays k3 e1 e2 (by simp), e2⟩

theorem begun_exec {w w' : Whole.Sys} {ls : List Whole.Ev} (hb : Begun w) (hx : Exec (Whole.Step ω) w ls w') : Begun w' :=
  hx.inv (P := fun _ w' => Begun w') hb fun _ _ _ _ _ ih hst => begun_step ih hst

theorem exec_none {S L : Type} {step : S → L → S → Prop} {s s' : S} (h : Exec step s [] s') : s' = s := by
  generalize e : ([] : List L) = l at h
  cases h with
  | nil => rfl
  | snoc => simp at e

theorem exec_single {S L : Type} {step : S → L → S → Prop} {s s' : S} {l : L} (h : Exec step s [l] s') : step s l s' := by
  obtain ⟨s1, h1, h2⟩ := Exec.split_snoc (tr := []) h
  rwa [exec_none h1] at h2

theorem seen_step {w w' : Whole.Sys} {n : Net.Sys} {l : Whole.Ev} (hs : Seen st w n) (hst : Whole.Step ω w l w') :
    ∃ n', Exec Net.Step n (netOf [l]) n' ∧ Seen st w' n' := by
  have hb := begun_step hs.begun hst
  obtain ⟨⟨tr, h1, h2⟩, h3, h4, h5, h6, h7⟩ := hs
  have hub : ∀ {e h'}, Hub.Step w.hub e h' → ∃ p', Exec Pipe.Step n.pipe (seenOf [e]) p' ∧ Sim h' p' ∧
      ∃ tr, Exec Hub.Step (Hub.new st) tr h' ∧ Exec Pipe.Step (Pipe.new st) (seenOf tr) p' := by
    intro e h' hst
    obtain ⟨p', g1, g2⟩ := sim_step h2 h3 hst
    exact ⟨p', g1, g2, tr ++ [e], h1.snoc hst, by rw [seenOf_append]; exact h2.append g1⟩
  cases hst with
  | feed c e x k1 k2 k3 k4 k5 =>
    exact ⟨_, .one (.feed c e x (by rw [h6, k1]) (by rw [h3.crashed, k2]) (by rw [h3.conns]; exact k3) k4 (by rw [h4]; exact k5)),
      ⟨tr, h1, h2⟩, h3, by rw [h4], h5, h6, hb⟩
  | kill c x k1 k2 k3 k4 =>
    exact ⟨_, .one (.crash c x (by rw [h6, k1]) (by rw [h3.crashed, k2]) (by rw [h3.conns]; exact k3) (by rw [h4]; exact k4)),
      ⟨tr, h1, h2⟩, h3, by rw [h4], h5, rfl, hb⟩
  | read c k o x h' k1 k2 k3 =>
    obtain ⟨p', g1, g2, g3⟩ := hub k3
    exact ⟨_, .one (.read c k o x p' (by rw [h6, k1]) (by rw [h4]; exact k2) (exec_single g1)), g3, g2, by rw [h4], h5, h6, hb⟩
  | bus e h' k1 k2 k3 =>
    obtain ⟨p', g1, g2, g3⟩ := hub k3
    have : seenOf [e] = [] := by cases e <;> simp_all [Whole.hidden, seenOf]
    rw [this] at g1
    rw [exec_none g1] at g2 g3
    exact ⟨n, .nil, g3, g2, h4, h5, h6, hb⟩
  | pass e h' k1 k2 k3 =>
    obtain ⟨p', g1, g2, g3⟩ := hub k3
    exact ⟨_, .one (.pipe e p' (by rw [h6, k1]) (between_inside k2) (exec_single g1)), g3, g2, h4, by rw [h5], h6, hb⟩
  | execute a env r h' k1 k2 k3 =>
    obtain ⟨p', g1, g2, g3⟩ := hub k3
    exact ⟨_, .one (.pipe _ p' (by rw [h6, k1]) rfl (exec_single g1)), g3, g2, h4, h5, h6, hb⟩
  | crash a env h' k1 k2 k3 =>
    obtain ⟨p', g1, g2, g3⟩ := hub k3
    exact ⟨_, .one (.pipe _ p' (by rw [h6, k1]) rfl (exec_single g1)), g3, g2, h4, h5, h6, hb⟩
  | receive | record | flush => exact ⟨n, .nil, ⟨tr, h1, h2⟩, h3, h4, h5, h6, hb⟩

/-- The file is left alone, and records get this stamp. -/
def Quiet (tr : List Whole.Ev) : Prop := .flushed ∉ tr ∧ (∀ q, .recorded q ∉ tr) ∧ ∀ q, .received q ∈ tr → q.1 = stamp0

theorem Quiet.append {a b : List Whole.Ev} (ha : Quiet a) (hb : Quiet b) : Quiet (a ++ b) := by
  simp only [Quiet, List.mem_append, not_or] at *
  exact ⟨⟨ha.1, hb.1⟩, fun q => ⟨ha.2.1 q, hb.2.1 q⟩, fun q h => h.elim (ha.2.2 q) (hb.2.2 q)⟩

/-- Steps of the hub, none of which can be seen. -/
theorem lift_hidden (w : Whole.Sys) {h h' : Hub.Sys} {es : List Hub.Ev} (hx : Exec Hub.Step h es h') (he : seenOf es = []) (hd : w.dead = false) :
    ∃ ls, Exec (Whole.Step ω) { w with hub := h } ls { w with hub := h' } ∧ netOf ls = [] ∧ Quiet ls := by
  revert he
  refine hx.inv (P := fun es h' => seenOf es = [] → ∃ ls, Exec (Whole.Step ω) { w with hub := h } ls { w with hub := h' } ∧ netOf ls = [] ∧ Quiet ls)
    (fun _ => ⟨[], .nil, rfl, by simp [Quiet]⟩) ?_
  rintro es h1 e h2 - ih hst he
  rw [seenOf_append, List.append_eq_nil_iff] at he
  obtain ⟨ls, g1, g2, g3⟩ := ih he.1
  have hh : Whole.hidden e = true := by cases e <;> simp_all [Whole.hidden, seenOf]
  refine ⟨ls ++ [.bus e], g1.snoc (.bus (s := { w with hub := h1 }) e h2 hd hh hst), by rw [netOf_append, g2]; rfl, g3.append (by simp [Quiet])⟩

theorem seenOf_one {es : List Hub.Ev} {e : Pipe.Ev} (h : seenOf es = [e]) : ∃ a b, es = a ++ .seen e :: b ∧ seenOf a = [] ∧ seenOf b = [] := by
  induction es with
  | nil => simp [seenOf] at h
  | cons x es ih =>
    cases x with
    | seen e' =>
      have h' : e' :: seenOf es = [e] := h
      simp only [List.cons.injEq] at h'
      exact ⟨[], es, by rw [h'.1]; rfl, rfl, h'.2⟩
    | requests y => obtain ⟨a, b, h1, h2, h3⟩ := ih h; exact ⟨.requests y :: a, b, by rw [h1]; rfl, h2, h3⟩
    | responses y => obtain ⟨a, b, h1, h2, h3⟩ := ih h; exact ⟨.responses y :: a, b, by rw [h1]; rfl, h2, h3⟩
    | looked => obtain ⟨a, b, h1, h2, h3⟩ := ih h; exact ⟨.looked :: a, b, by rw [h1]; rfl, h2, h3⟩

/-- Steps of the hub, one of which can be seen. -/
theorem lift_seen (w : Whole.Sys) (P : Whole.Sys → Prop) {h h' : Hub.Sys} {es : List Hub.Ev} {e : Pipe.Ev} {ne : Net.Ev} (hx : Exec Hub.Step h es h')
    (he : seenOf es = [e]) (hd : w.dead = false)
    (hl : ∀ h1 h2, Hub.Step h1 (.seen e) h2 → ∃ (ls : List Whole.Ev) (w' : Whole.Sys), Exec (Whole.Step ω) { w with hub := h1 } ls { w' with hub := h2 } ∧ netOf ls = [ne] ∧
      Quiet ls ∧ w'.dead = false ∧ P w') :
    ∃ ls w', Exec (Whole.Step ω) { w with hub := h } ls { w' with hub := h' } ∧ netOf ls = [ne] ∧ Quiet ls ∧ P w' ∧ w'.dead = false := by
  obtain ⟨a, b, rfl, h1, h2⟩ := seenOf_one he
  obtain ⟨s1, g1, g2⟩ := hx.split
  rw [← List.singleton_append] at g2
  obtain ⟨s2, g3, g4⟩ := g2.split
  obtain ⟨l1, k1, k2, k3⟩ := lift_hidden (ω := ω) w g1 h1 hd
  obtain ⟨l3, w', k7, k8, k9, hd', hP⟩ := hl _ _ (exec_single g3)
  obtain ⟨l2, k4, k5, k6⟩ := lift_hidden (ω := ω) w' g4 h2 hd'
  refine ⟨l1 ++ l3 ++ l2, w', (k1.append k7).append k4, by simp [netOf_append, k2, k5, k8], (k3.append k9).append k6, hP, hd'⟩

theorem seen_back {w : Whole.Sys} {n n' : Net.Sys} {e : Net.Ev} (hs : Seen st w n) (hst : Net.Step n e n') :
    ∃ ls w', Exec (Whole.Step ω) w ls w' ∧ netOf ls = [e] ∧ Quiet ls ∧ Seen st w' n' := by
  obtain ⟨⟨tr, h1, h2⟩, h3, h4, h5, h6, h7⟩ := hs
  cases hst with
  | feed c e x k1 k2 k3 k4 k5 =>
    refine ⟨_, _, .one (.feed c e x (by rw [← h6, k1]) (by rw [← h3.crashed, k2]) (by rw [← h3.conns]; exact k3) k4 (by rw [← h4]; exact k5)), rfl, ?_,
      ⟨tr, h1, h2⟩, h3, by rw [h4], h5, h6, h7⟩
    simp [Quiet]
  | crash c x k1 k2 k3 k4 =>
    refine ⟨_, _, .one (.kill c x (by rw [← h6, k1]) (by rw [← h3.crashed, k2]) (by rw [← h3.conns]; exact k3) (by rw [← h4]; exact k4)), rfl, ?_,
      ⟨tr, h1, h2⟩, h3, by rw [h4], h5, rfl, h7⟩
    simp [Quiet]
  | read c k o x p' k1 k2 k3 =>
    obtain ⟨es, h', g1, g2, g3⟩ := sim_back h1 h2 h3 k3
    have hd : w.dead = false := by rw [← h6, k1]
    obtain ⟨ls, w', m1, m2, m3, ⟨m4, m5⟩, m6⟩ := lift_seen (ω := ω) (ne := .read c k o) w (fun w' => w'.feeds = upd w.feeds c x ∧ w'.out = w.out) g1 g2 hd (by
      intro a b hab
      exact ⟨_, { w with feeds := upd w.feeds c x }, .one (.read (s := { w with hub := a }) c k o x b hd (by rw [← h4]; exact k2) hab), rfl,
        by simp [Quiet], hd, rfl, rfl⟩)
    exact ⟨ls, _, m1, m2, m3, ⟨tr ++ es, h1.append g1, by rw [seenOf_append, g2]; exact h2.append (.one k3)⟩, g3, by rw [h4]; exact m4.symm,
      by rw [h5]; exact m5.symm, by rw [h6, hd]; exact m6.symm, begun_exec h7 m1⟩
  | pipe e p' k1 k2 k3 =>
    obtain ⟨es, h', g1, g2, g3⟩ := sim_back h1 h2 h3 k3
    have hd : w.dead = false := by rw [← h6, k1]
    have key : ∀ a b, Hub.Step a (.seen e) b → ∃ (ls : List Whole.Ev) (w' : Whole.Sys), Exec (Whole.Step ω) { w with hub := a } ls { w' with hub := b } ∧ netOf ls = [.pipe e] ∧
        Quiet ls ∧ w'.dead = false ∧ w'.feeds = w.feeds ∧ w'.out = Net.grow w.out e := by
      intro a b hab
      by_cases hb : Whole.between e = true
      · exact ⟨_, { w with out := Net.grow w.out e }, .one (.pass (s := { w with hub := a }) e b hd hb hab), rfl, by simp [Quiet], hd, rfl, rfl⟩
      · obtain ⟨k, m, id, objs, q1, q2, q3, q4⟩ : ∃ k m id objs, a.crashed = false ∧ a.engine = .has (k, m) ∧ Pipe.parseRequest m = some (id, objs) ∧
            (∀ w1 : Whole.Sys, w1.hub = a → w1.dead = false → w1.begun ≠ none → ∃ w2 : Whole.Sys, Whole.Step ω w1 (.net (.pipe e)) { w2 with hub := b } ∧
              w2.dead = w1.dead ∧ w2.feeds = w1.feeds ∧ w2.out = Net.grow w1.out e) := by
          cases hab <;> simp [Whole.between, Net.inside] at hb k2
          case execute k m id objs env db r w0 q1 q2 q3 q4 q5 =>
            refine ⟨k, m, id, objs, q1, q2, q3, fun w1 e1 e2 e3 => ⟨{ w1 with begun := none }, .execute k env r _ e2 e3 ?_, rfl, rfl, rfl⟩⟩
            rw [e1]
            exact .execute k m id objs env db r w0 q1 q2 q3 q4 q5
          case crash k m id objs env q1 q2 q3 q4 =>
            refine ⟨k, m, id, objs, q1, q2, q3, fun w1 e1 e2 e3 => ⟨w1, .crash k env _ e2 e3 ?_, rfl, rfl, rfl⟩⟩
            rw [e1]
            exact .crash k m id objs env q1 q2 q3 q4
        by_cases hn : w.begun = none
        · have r1 := Whole.Step.receive (ω := ω) (s := { w with hub := a }) k m id (stamp0, objs) hd q1 q2 q3 hn
          obtain ⟨w2, r2, r3, r4, r5⟩ := q4 { w with hub := a, begun := some (stamp0, objs)
                                                     pending := if isLogged objs then w.pending ++ [(stamp0, objs)] else w.pending } rfl hd (by simp)
          exact ⟨_, w2, .cons r1 (.one r2), rfl, by simp [Quiet], r3.trans hd, r4, r5⟩
        · obtain ⟨w2, r2, r3, r4, r5⟩ := q4 { w with hub := a } rfl hd hn
          exact ⟨_, w2, .one r2, rfl, by simp [Quiet], r3.trans hd, r4, r5⟩
    obtain ⟨ls, w', m1, m2, m3, ⟨m4, m5⟩, m6⟩ := lift_seen (ω := ω) w (fun w' => w'.feeds = w.feeds ∧ w'.out = Net.grow w.out e) g1 g2 hd key
    exact ⟨ls, _, m1, m2, m3, ⟨tr ++ es, h1.append g1, by rw [seenOf_append, g2]; exact h2.append (.one k3)⟩, g3, by rw [h4]; exact m4.symm,
      by rw [h5]; exact m5.symm, by rw [h6, hd]; exact m6.symm, begun_exec h7 m1⟩

/-- C81: from the network the whole server, with its bus and its log, cannot be told apart from the server of C70, at any moment and with all that can
still happen; both have written the same bytes and store the same. -/
theorem C81_alike : ∃ R, R (Whole.new d st) (Net.new st) ∧ Alike (Whole.Step ω) Net.Step netOf R ∧
    ∀ w n, R w n → n.out = w.out ∧ n.feeds = w.feeds ∧ n.dead = w.dead ∧ n.pipe.db = w.hub.db := by
  refine ⟨Seen st, seen_new, ⟨fun w n hs l w' hst => seen_step hs hst, fun w n hs e n' hst => ?_⟩, fun w n hs => ⟨hs.out, hs.feeds, hs.dead, hs.sim.db⟩⟩
  obtain ⟨ls, w', h1, h2, -, h3⟩ := seen_back hs hst
  exact ⟨ls, w', h1, h2, h3⟩

theorem whole_net {tr : List Whole.Ev} {w : Whole.Sys} (hx : Exec (Whole.Step ω) (Whole.new d st) tr w) :
    ∃ n, Exec Net.Step (Net.new st) (netOf tr) n ∧ Seen st w n := by
  refine hx.inv (P := fun tr w => ∃ n, Exec Net.Step (Net.new st) (netOf tr) n ∧ Seen st w n) ⟨_, .nil, seen_new⟩ ?_
  rintro tr w l w' - ⟨n, h1, h2⟩ hst
  obtain ⟨n', g1, g2⟩ := seen_step h2 hst
  exact ⟨n', by rw [netOf_append]; exact h1.append g1, g2⟩

theorem untouched_file {ls : List Whole.Ev} {w w' : Whole.Sys} (hx : Exec (Whole.Step ω) w ls w') (hu : Untouched ls) : w'.file = w.file := by
  revert hu
  refine hx.inv (P := fun ls w' => Untouched ls → w'.file = w.file) (fun _ => rfl) ?_
  rintro ls w1 l w2 - ih hst hu
  have h1 : Untouched ls := by simp_all [Untouched]
  rw [← ih h1]
  cases hst <;> simp_all [Untouched]

theorem whole_quiet {tr : List Net.Ev} {n : Net.Sys} (hx : Exec Net.Step (Net.new st) tr n) :
    ∃ tr' w, Exec (Whole.Step ω) (Whole.new d st) tr' w ∧ netOf tr' = tr ∧ Quiet tr' ∧ Seen st w n := by
  refine hx.inv (P := fun tr n => ∃ tr' w, Exec (Whole.Step ω) (Whole.new d st) tr' w ∧ netOf tr' = tr ∧ Quiet tr' ∧ Seen st w n)
    ⟨[], _, .nil, rfl, by simp [Quiet], seen_new⟩ ?_
  rintro tr n e n' - ⟨tr', w, h1, h2, h3, h4⟩ hst
  obtain ⟨ls, w', g1, g2, g3, g4⟩ := seen_back (ω := ω) h4 hst
  refine ⟨tr' ++ ls, w', h1.append g1, by rw [netOf_append, h2, g2], ?_, g4⟩
  exact h3.append g3

/-- C81: whatever clients see can have happened without a single byte having reached the file. -/
theorem C81_lost {tr : List Net.Ev} {n : Net.Sys} (hx : Exec Net.Step (Net.new st) tr n) :
    ∃ tr' w, Exec (Whole.Step ω) (Whole.new d st) tr' w ∧ netOf tr' = tr ∧ w.out = n.out ∧ w.hub.db = n.pipe.db ∧ w.file.disk = d ∧
      (w.file.flush ω).disk = d := by
  obtain ⟨tr', w, h1, h2, h3, h4⟩ := whole_quiet (ω := ω) (d := d) hx
  have hf := untouched_file h1 ⟨h3.1, h3.2.1⟩
  refine ⟨tr', w, h1, h2, h4.out.symm, h4.sim.db.symm, by rw [hf]; rfl, ?_⟩
  rw [hf]
  rfl

/-! ### the log -/

/-- The request the engine has begun with, if it will meet the surroundings `env`. -/
def atWork (w : Whole.Sys) (env : Env) : Option Req := w.begun.map fun q => ⟨q.1, env, q.2⟩

/-- The steps of the engine; if `U`, those in which no request is received while a writer is still waiting. -/
def Moves (U : Prop) (ω : Nat → Nat) (e e' : Engine) : Prop := Engine.Step ω e e' ∧ (U → e'.todo = e.todo ∨ e.pending = [])

/-- The engine of the whole server is the engine of C34. -/
structure Logs (U : Prop) (ω : Nat → Nat) (d : Bytes) (st : State) (tr : List Whole.Ev) (w : Whole.Sys) (h : List Req) : Prop where
  recs : begunIn tr = h.map recordOf ++ w.begun.toList
  done : Executed (netOf tr) h
  run : ∀ env, ∃ e, Relation.ReflTransGen (Moves U ω) (Engine.startOn d st (h ++ (atWork w env).toList)) e ∧ e.todo = [] ∧ e.current = atWork w env ∧
    e.db = w.hub.db ∧ e.replies = (doneIn (netOf tr)).map (fun x => x.2.2) ∧ e.pending.map recordOf = w.pending ∧ e.file = w.file

theorem moves_more {U : Prop} {h t : List Req} {e : Engine} (hr : Relation.ReflTransGen (Moves U ω) (Engine.startOn d st h) e) :
    Relation.ReflTransGen (Moves U ω) (Engine.startOn d st (h ++ t)) { e with todo := e.todo ++ t } := by
  induction hr with
  | refl => exact .refl
  | @tail e e' _ hs ih =>
    refine ih.tail ?_
    obtain ⟨hs, hu⟩ := hs
    cases hs with
    | @receive q rest ht hc =>
      refine ⟨.receive (e := { e with todo := e.todo ++ t }) (q := q) (rest := rest ++ t) (by simp [ht]) hc, fun u => ?_⟩
      rcases hu u with hu | hu
      · exact absurd hu (by rw [ht]; simp)
      · exact .inr hu
    | @execute q db r hc hh => exact ⟨.execute (e := { e with todo := e.todo ++ t }) hc hh, fun _ => .inl rfl⟩
    | @write b a q hp => exact ⟨.write (e := { e with todo := e.todo ++ t }) hp, fun _ => .inl rfl⟩
    | flush => exact ⟨.flush (e := { e with todo := e.todo ++ t }), fun _ => .inl rfl⟩

theorem doneIn_append (a b : List Net.Ev) : doneIn (a ++ b) = doneIn a ++ doneIn b := by
  induction a with
  | nil => rfl
  | cons e a ih =>
    cases e with
    | pipe e => cases e <;> simp [doneIn, ih]
    | _ => simp [doneIn, ih]

theorem executed_more {a b : List Net.Ev} {h : List Req} (hd : doneIn b = []) (he : Executed a h) : Executed (a ++ b) h := by
  rw [Executed, doneIn_append, hd, List.append_nil]
  exact he.imp fun x q ⟨h1, c, o, h2, h3⟩ => ⟨h1, c, o, by rw [askedBy_append]; simp [h2], h3⟩

/-- What the engine is at was sent by some client. -/
theorem whole_asked {tr : List Whole.Ev} {w : Whole.Sys} (hx : Exec (Whole.Step ω) (Whole.new d st) tr w) {n : Nat} {m : Msg} {id : Bytes} {objs : List Resp}
    (hm : w.hub.engine = .has (n, m)) (hp : Pipe.parseRequest m = some (id, objs)) : ∃ c o, (n, o) ∈ askedBy c (netOf tr) ∧ ArrayOf o objs := by
  obtain ⟨s, h1, h2⟩ := whole_net hx
  obtain ⟨-, g2, -, -, g5⟩ := net_split h1
  have he := h2.sim.engine
  rw [hm] at he
  obtain ⟨c, id', o, k1, k2, rfl⟩ := (pipeInv g2).req n m (by simp [he])
  refine ⟨c, o, (mem_askedBy g5).2 k1, ?_⟩
  have := (parseRequest_some hp).2
  cases o <;> simp_all [Pipe.asArray, ArrayOf]

/-- Steps in which, if `U`, the engine does not begin with a request while a writer is still waiting. -/
def Goes (U : Prop) (ω : Nat → Nat) (w : Whole.Sys) (l : Whole.Ev) (w' : Whole.Sys) : Prop :=
  Whole.Step ω w l w' ∧ (U → (∃ q, l = .received q) → w.pending = [])

theorem goes_step {U : Prop} {tr : List Whole.Ev} {w : Whole.Sys} (hx : Exec (Goes U ω) (Whole.new d st) tr w) : Exec (Whole.Step ω) (Whole.new d st) tr w :=
  hx.inv (P := fun tr w => Exec (Whole.Step ω) (Whole.new d st) tr w) .nil fun _ _ _ _ _ ih hst => ih.snoc hst.1

/-- A step of the hub other than the execution of a request leaves the database alone. -/
theorem db_stays {h h' : Hub.Sys} {e : Hub.Ev} (hs : Hub.Step h e h') (he : ∀ n env r, e ≠ .seen (.executed n env r)) : h'.db = h.db := by
  cases hs <;> simp_all

theorem whole_logs {U : Prop} {tr : List Whole.Ev} {w : Whole.Sys} (hx : Exec (Goes U ω) (Whole.new d st) tr w) : ∃ h, Logs U ω d st tr w h := by
  refine hx.inv (P := fun tr w => ∃ h, Logs U ω d st tr w h) ⟨[], rfl, .nil, fun env => ⟨_, .refl, rfl, rfl, rfl, rfl, rfl, rfl⟩⟩ ?_
  rintro tr w l w' hx ⟨h, h1, h2, h3⟩ ⟨hst, hu⟩
  have hx := goes_step hx
  obtain ⟨n, hn, hseen⟩ := whole_net hx
  -- nothing happens to the engine and its log
  have same : begunIn [l] = [] → doneIn (netOf [l]) = [] → w'.begun = w.begun → w'.hub.db = w.hub.db → w'.pending = w.pending → w'.file = w.file →
      ∃ h, Logs U ω d st (tr ++ [l]) w' h := by
    intro k1 k2 k3 k4 k5 k6
    refine ⟨h, ?_, ?_, ?_⟩
    · rw [begunIn_append, k1, List.append_nil, h1, k3]
    · rw [netOf_append]; exact executed_more k2 h2
    · intro env
      obtain ⟨e, g1, g2, g3, g4, g5, g6, g7⟩ := h3 env
      have ha : atWork w' env = atWork w env := by rw [atWork, atWork, k3]
      exact ⟨e, by rw [ha]; exact g1, g2, by rw [ha]; exact g3, by rw [k4]; exact g4, by rw [netOf_append, doneIn_append, k2, List.append_nil]; exact g5,
        by rw [k5]; exact g6, by rw [k6]; exact g7⟩
  cases hst with
  | feed c e x k1 k2 k3 k4 k5 => exact same rfl rfl rfl rfl rfl rfl
  | kill c x k1 k2 k3 k4 => exact same rfl rfl rfl rfl rfl rfl
  | read c k o x h' k1 k2 k3 => exact same rfl rfl rfl (db_stays k3 (by simp)) rfl rfl
  | bus e h' k1 k2 k3 => exact same rfl rfl rfl (db_stays k3 (by rintro _ _ _ rfl; simp [Whole.hidden] at k2)) rfl rfl
  | pass e h' k1 k2 k3 =>
    refine same rfl ?_ rfl (db_stays k3 (by rintro _ _ _ ⟨⟩; simp [Whole.between] at k2)) rfl rfl
    cases e <;> simp_all [netOf, doneIn, Whole.between]
  | crash a env h' k1 k2 k3 => exact same rfl rfl rfl (db_stays k3 (by simp)) rfl rfl
  | receive a m id q k1 k2 k3 k4 k5 =>
    refine ⟨h, ?_, ?_, ?_⟩
    · rw [begunIn_append, h1, k5]; simp [begunIn]
    · rw [netOf_append]; exact executed_more rfl h2
    · intro env
      obtain ⟨e, g1, g2, g3, g4, g5, g6, g7⟩ := h3 env
      have ha : atWork w env = none := by rw [atWork, k5]; rfl
      rw [ha] at g1 g3
      simp only [Option.toList_none, List.append_nil] at g1
      have g1' := moves_more (t := [⟨q.1, env, q.2⟩]) g1
      refine ⟨_, g1'.tail ⟨.receive (q := ⟨q.1, env, q.2⟩) (rest := []) (by simp [g2]) g3, fun u => .inr ?_⟩, rfl, rfl, g4, ?_, ?_, g7⟩
      · have := hu u ⟨q, rfl⟩
        rw [this] at g6
        simpa using g6
      · rw [netOf_append, doneIn_append]; simpa [netOf, doneIn] using g5
      · simp only
        split <;> simp [g6, recordOf]
  | execute a env r h' k1 k2 k3 =>
    obtain ⟨q, hq⟩ := Option.ne_none_iff_exists'.1 k2
    cases hk : k3 with
    | execute _ m id objs _ db _ w0 q1 q2 q3 q4 q5 =>
      obtain ⟨n', m', id', e1, e2⟩ := hseen.begun q hq
      rw [q2] at e1
      cases e1
      rw [q3] at e2
      cases e2
      obtain ⟨c, o, a1, a2⟩ := whole_asked hx q2 q3
      refine ⟨h ++ [⟨q.1, env, q.2⟩], ?_, ?_, ?_⟩
      · rw [begunIn_append, h1, hq]; simp [begunIn, recordOf]
      · rw [netOf_append, Executed, doneIn_append]
        refine List.rel_append (h2.imp fun x q ⟨h1, c, o, h2, h3⟩ => ⟨h1, c, o, by rw [askedBy_append]; simp [h2], h3⟩) ?_
        exact .cons ⟨rfl, c, o, by rw [askedBy_append]; simp [a1], a2⟩ .nil
      · intro env'
        obtain ⟨e, g1, g2, g3, g4, g5, g6, g7⟩ := h3 env
        have ha : atWork w env = some ⟨q.1, env, q.2⟩ := by rw [atWork, hq]; rfl
        rw [ha] at g1 g3
        have g8 := g1.tail ⟨.execute g3 (by rw [g4]; exact q4), fun _ => .inl rfl⟩
        refine ⟨{ e with current := none, db := db, replies := e.replies ++ [r] }, by simpa [atWork] using g8, g2, rfl, rfl, ?_, g6, g7⟩
        rw [netOf_append, doneIn_append, List.map_append, ← g5]
        rfl
  | record q b a k1 k2 k3 =>
    refine ⟨h, ?_, ?_, ?_⟩
    · rw [begunIn_append, h1]; simp [begunIn]
    · rw [netOf_append]; exact executed_more rfl h2
    · intro env
      obtain ⟨e, g1, g2, g3, g4, g5, g6, g7⟩ := h3 env
      rw [k3] at g6
      obtain ⟨b', x, e1, e2, e3⟩ := List.map_eq_append_iff.1 g6
      obtain ⟨q', a', rfl, e4, e5⟩ := List.map_eq_cons_iff.1 e3
      have hw : writeRecord ω e.file q' = writeRecord ω w.file q := by
        simp only [recordOf, Prod.mk.injEq] at e4
        simp only [writeRecord, e4, g7]
      refine ⟨_, g1.tail ⟨.write e1, fun _ => .inl rfl⟩, g2, g3, g4, ?_, ?_, hw⟩
      · rw [netOf_append, doneIn_append]; simpa [netOf, doneIn] using g5
      · simp [e2, e5]
  | flush k1 k2 =>
    refine ⟨h, ?_, ?_, ?_⟩
    · rw [begunIn_append, h1]; simp [begunIn]
    · rw [netOf_append]; exact executed_more rfl h2
    · intro env
      obtain ⟨e, g1, g2, g3, g4, g5, g6, g7⟩ := h3 env
      refine ⟨_, g1.tail ⟨.flush, fun _ => .inl rfl⟩, g2, g3, g4, ?_, g6, by simp [g7]⟩
      rw [netOf_append, doneIn_append]; simpa [netOf, doneIn] using g5

theorem moves_runs {h : List Req} {e : Engine} {U : Prop} (hr : Relation.ReflTransGen (Moves U ω) (Engine.startOn d st h) e) :
    Relation.ReflTransGen (Engine.Step ω) (Engine.startOn d st h) e :=
  Relation.ReflTransGen.mono (r := Moves U ω) (p := Engine.Step ω) (fun _ _ h => h.1) _ _ hr

/-- C81: behind the network works the engine of C33, C34, C59, C77 and C78. Whatever is going on, when the engine is between two requests there is a
history of requests, the ones executed for the clients in this order, on which that engine has given the replies that were given here, stores what is
stored here, has the same writers waiting and the same in its file. -/
theorem C81_log {tr : List Whole.Ev} {w : Whole.Sys} (hx : Exec (Whole.Step ω) (Whole.new d st) tr w) (hb : w.begun = none) :
    ∃ h e, Executed (netOf tr) h ∧ h.map recordOf = begunIn tr ∧ Relation.ReflTransGen (Engine.Step ω) (Engine.startOn d st h) e ∧ e.todo = [] ∧
      e.current = none ∧ e.db = w.hub.db ∧ e.replies = (doneIn (netOf tr)).map (fun x => x.2.2) ∧ e.pending.map recordOf = w.pending ∧ e.file = w.file := by
  obtain ⟨h, h1, h2, h3⟩ := whole_logs (U := False) (hx.inv (P := fun tr w => Exec (Goes False ω) (Whole.new d st) tr w) .nil
    fun _ _ _ _ _ ih hst => ih.snoc ⟨hst, False.elim⟩)
  obtain ⟨e, g1, g2, g3, g4, g5, g6, g7⟩ := h3 env0
  rw [atWork, hb] at g1 g3
  rw [hb] at h1
  simp only [Option.map_none, Option.toList_none, List.append_nil] at g1 g3 h1
  exact ⟨h, e, h2, h1.symm, moves_runs g1, g2, g3, g4, g5, g6, g7⟩

/-- What the engine executes was read from a connection. -/
theorem executed_wire {tr : List Net.Ev} {n : Net.Sys} {h : List Req} (hx : Exec Net.Step (Net.new st) tr n) (he : Executed tr h) {q : Req} (hq : q ∈ h) :
    (∃ s r, parse s = .ok (.array q.objs) r) ∧ ∃ x ∈ doneIn tr, q.env = x.2.1 := by
  obtain ⟨x, hx1, h1, c, o, h2, h3⟩ : ∃ x ∈ doneIn tr, q.env = x.2.1 ∧ ∃ c o, (x.1, o) ∈ askedBy c tr ∧ ArrayOf o q.objs := by
    unfold Executed at he
    obtain ⟨i, hi, rfl⟩ := List.mem_iff_getElem.1 hq
    have hi' : i < (doneIn tr).length := by rw [he.length_eq]; exact hi
    exact ⟨(doneIn tr)[i], List.getElem_mem _, he.get hi' hi⟩
  refine ⟨?_, x, hx1, h1⟩
  rcases h3 with rfl | ⟨rfl, h3⟩
  · obtain ⟨used, g1, -⟩ := (C70_streams hx c).1
    have : ∀ (os : List Resp) used, TakenAll os used → ∀ o ∈ os, ∃ b, Taken o b := by
      intro os
      induction os with
      | nil => simp
      | cons o' os ih =>
        intro used h o ho
        cases h with
        | cons ht h =>
          rcases List.mem_cons.1 ho with rfl | ho
          · exact ⟨_, ht⟩
          · exact ih _ h o ho
    obtain ⟨b, hb⟩ := this _ _ g1 (.array q.objs) (List.mem_map.2 ⟨_, h2, rfl⟩)
    exact ⟨b, [], (C62_read _ _ _).2 ⟨b, by simp, hb⟩⟩
  · rw [h3]
    exact ⟨b!"*0\r\n", [], by rfl⟩

/-- A server lives one of the lives of C78, under `U` one of those in which no writer is overtaken. -/
theorem whole_life {U : Prop} {tr : List Whole.Ev} {w : Whole.Sys} (hs : Begins d st) (hx : Exec (Goes U ω) (Whole.new d st) tr w) (hw : Settled w) :
    ∃ h, Executed (netOf tr) h ∧ begunIn tr = h.map recordOf ∧ Life (Moves U) d h ((doneIn (netOf tr)).map fun x => x.2.2) w.file.disk ∧
      (∀ q ∈ h, (∃ s r, parse s = .ok (.array q.objs) r) ∧ ∃ x ∈ doneIn (netOf tr), q.env = x.2.1) := by
  obtain ⟨n, hn, hseen⟩ := whole_net (goes_step hx)
  obtain ⟨h, h1, h2, h3⟩ := whole_logs hx
  obtain ⟨e, g1, g2, g3, g4, g5, g6, g7⟩ := h3 env0
  rw [atWork, hw.begun] at g1 g3
  rw [hw.begun] at h1
  simp only [Option.map_none, Option.toList_none, List.append_nil] at g1 g3 h1
  have hpend : e.pending = [] := by rw [hw.pending] at g6; simpa using g6
  exact ⟨h, h2, h1, ⟨ω, st, e, hs, g1, ⟨g2, g3, hpend⟩, ⟨by rw [g7]; exact hw.failed, by rw [g7]; exact hw.buf⟩, g5, by rw [g7]⟩,
    fun q hq => executed_wire hn h2 hq⟩

theorem life_mono {R R' : (Nat → Nat) → Engine → Engine → Prop} (hR : ∀ ω e e', R ω e e' → R' ω e e') {d d' : Bytes} {h : List Req} {rs : List Resp}
    (hl : Life R d h rs d') : Life R' d h rs d' := by
  obtain ⟨ω, st, e, h1, h2, h3⟩ := hl
  exact ⟨ω, st, e, h1, Relation.ReflTransGen.mono (hR ω) _ _ h2, h3⟩

/-- Servers one after the other, seen from the network, are those of C78. -/
theorem whole_lives {U : Prop} {R : (Nat → Nat) → Whole.Sys → Whole.Ev → Whole.Sys → Prop} {R' : (Nat → Nat) → Engine → Engine → Prop}
    (hR : ∀ ω w e w', R ω w e w' → Goes U ω w e w') (hR' : ∀ ω e e', Moves U ω e e' → R' ω e e') {trs : List (List Whole.Ev)} {d : Bytes}
    (hl : NetLives R trs d) :
    ∃ hs, List.Forall₂ (fun tr h => Executed (netOf tr) h) trs hs ∧ Lives R' hs (trs.map fun tr => (doneIn (netOf tr)).map fun x => x.2.2) d ∧
      ∀ h ∈ hs, ∃ tr ∈ trs, ∀ q ∈ h, recordOf q ∈ begunIn tr ∧ (∃ s r, parse s = .ok (.array q.objs) r) ∧ ∃ x ∈ doneIn (netOf tr), q.env = x.2.1 := by
  induction hl with
  | none => exact ⟨[], .nil, .none, by simp⟩
  | @next trs d st ω tr w _ hs hx hw ih =>
    obtain ⟨hs', g1, g2, g3⟩ := ih
    obtain ⟨h, k1, k2, k3, k4⟩ := whole_life hs
      (hx.inv (P := fun tr w => Exec (Goes U ω) (Whole.new d st) tr w) .nil fun _ _ _ _ _ ih hst => ih.snoc (hR _ _ _ _ hst)) hw
    refine ⟨hs' ++ [h], List.rel_append g1 (.cons k1 .nil), ?_, ?_⟩
    · rw [List.map_append]
      exact .next g2 (life_mono hR' k3)
    · intro h' hh'
      rcases List.mem_append.1 hh' with hh' | hh'
      · obtain ⟨tr', m1, m2⟩ := g3 h' hh'
        exact ⟨tr', by simp [m1], m2⟩
      · rw [List.mem_singleton] at hh'
        subst hh'
        exact ⟨tr, by simp, fun q hq => ⟨by rw [k2]; exact List.mem_map.2 ⟨q, hq, rfl⟩, k4 q hq⟩⟩

/-- C81, whatever the requests and however the writers overtake each other: over any number of servers that end with nothing left in the buffer, the next
one executes again, server by server, those of the requests executed for the clients that leave a record, the ones of one server in some order. It holds
the result, or dies where this execution dies. -/
theorem C81_exact {trs : List (List Whole.Ev)} {d : Bytes} (hl : NetLives Whole.Step trs d) (hq : ∀ tr ∈ trs, Really tr) :
    ∃ hs ws, List.Forall₂ (fun tr h => Executed (netOf tr) h) trs hs ∧ List.Forall₂ (fun w h => w.Perm (recorded h)) ws hs ∧
      ∀ envs, fromFile noDBs envs d = filledBy (serve State.empty (again envs ws.flatten)) := by
  obtain ⟨hs, h1, h2, h3⟩ := whole_lives (U := False) (R' := Engine.Step) (fun _ _ _ _ h => ⟨h, False.elim⟩) (fun _ _ _ h => h.1) hl
  obtain ⟨ws, g1, g2⟩ := C78_exact h2 fun h hh q hqh => by
    obtain ⟨tr, m1, m2⟩ := h3 h hh
    obtain ⟨k1, k2, x, k3, k4⟩ := m2 q hqh
    have := (hq tr m1).1 _ k1
    exact ⟨by rw [k4]; exact (hq tr m1).2 x k3, k2, this.time, this.id, this.host, this.small⟩
  exact ⟨hs, ws, h1, g1, g2⟩

/-- C81, for requests in UTF-8 other than LTRIM and SPOP, over any number of servers run one after the other on the same file, in each of which every
writer gets to the file before the engine begins with the next request, and which end with nothing left in the buffer: the replies to all clients of all
servers are those of one database that is never restarted, and the next server begins with its contents. What is missing from the full claim is
refuted by `C81_false`, `C34_false` and `C33_false`. -/
theorem C81_restart_partial {trs : List (List Whole.Ev)} {d : Bytes} (hl : NetLives Whole.Calmly trs d) (hq : ∀ tr ∈ trs, Plainly tr) {envs : Nat → Env}
    (hfair : ∀ i, (envs i).ord.Fair) :
    ∃ hs a dbs, List.Forall₂ (fun tr h => Executed (netOf tr) h) trs hs ∧
      Trace DB.empty (hs.flatten.map Req.objs) (trs.flatMap fun tr => (doneIn (netOf tr)).map fun x => x.2.2) a ∧
      fromFile noDBs envs d = .ok dbs ∧ Abs (dbs 1) a := by
  obtain ⟨hs, h1, h2, h3⟩ := whole_lives (U := True) (R' := Unhurried) (fun _ _ _ _ h => ⟨h.1, fun _ => h.2⟩) (fun _ _ _ h => ⟨h.1, h.2 trivial⟩) hl
  have h4 : ∀ h ∈ hs, ∀ q ∈ h, q.Occurs ∧ ¬ q.Is b!"ltrim" ∧ ¬ q.Is b!"spop" ∧ ∀ o ∈ q.objs, TextObj o := by
    intro h hh q hqh
    obtain ⟨tr, m1, m2⟩ := h3 h hh
    obtain ⟨k1, k2, x, k3, k4⟩ := m2 q hqh
    obtain ⟨m3, m4, m5, m6⟩ := (hq tr m1).1 q k1
    exact ⟨⟨by rw [k4]; exact (hq tr m1).2 x k3, k2, m3.time, m3.id, m3.host, m3.small⟩, m4, m5, m6⟩
  obtain ⟨a, t1, t2⟩ := C78_invisible_partial h2 h4
  obtain ⟨dbs, d1, d2, -⟩ := t2 envs hfair
  exact ⟨hs, a, dbs, h1, by rw [List.flatMap_def]; exact t1, d1, d2⟩

/-! ### a log that keeps up -/

theorem flush_clean {n : Nat} (hω : ∀ i, n ≤ ω i) (hn : 4096 ≤ n) {p : PFile} (hf : p.failed = false) (hb : p.buf.length ≤ PFile.bufSize) :
    (p.flush ω).failed = false ∧ (p.flush ω).buf = [] ∧ (p.flush ω).disk = p.disk ++ p.buf := by
  have h1 : (p.flush ω).failed = false := noFail_run hω hn hf hb .flush (Nat.zero_le _)
  have h2 := PFile.flush_done ω _ h1
  have h3 := PFile.flush_bytes ω p
  rw [h2, List.append_nil] at h3
  exact ⟨h1, h2, h3⟩

/-- C81: on a disk that takes every write, whatever happens at the server can also have happened with the log keeping up: to the clients and the engine
everything is the same, no writer is ever overtaken, and the file has all records in the order of the execution. -/
theorem C81_kept {n : Nat} (hω : ∀ i, n ≤ ω i) (hn : 4096 ≤ n) {tr : List Whole.Ev} {w : Whole.Sys} (hx : Exec (Whole.Step ω) (Whole.new d st) tr w)
    (hq : ∀ q ∈ begunIn tr, (requestLog q.1 q.2).length ≤ n) :
    ∃ tr' f, Exec (Whole.Calmly ω) (Whole.new d st) tr' { w with pending := [], file := f } ∧ netOf tr' = netOf tr ∧ begunIn tr' = begunIn tr ∧
      f.failed = false ∧ f.buf = [] ∧ f.disk = d ++ (begunIn tr).flatMap fun q => requestLog q.1 q.2 := by
  revert hq
  refine hx.inv (P := fun tr w => (∀ q ∈ begunIn tr, (requestLog q.1 q.2).length ≤ n) →
    ∃ tr' f, Exec (Whole.Calmly ω) (Whole.new d st) tr' { w with pending := [], file := f } ∧ netOf tr' = netOf tr ∧ begunIn tr' = begunIn tr ∧
      f.failed = false ∧ f.buf = [] ∧ f.disk = d ++ (begunIn tr).flatMap fun q => requestLog q.1 q.2)
    (fun _ => ⟨[], PFile.new d, .nil, rfl, rfl, rfl, rfl, by simp [PFile.new, begunIn]⟩) ?_
  rintro tr w l w' - ih hst hq
  rw [begunIn_append] at hq
  obtain ⟨tr', f, h1, h2, h3, h4, h5, h6⟩ := ih fun q h => hq q (by simp [h])
  have lift : ∀ w'' : Whole.Sys, Whole.Step ω { w with pending := [], file := f } l w'' → w'' = { w' with pending := [], file := f } → begunIn [l] = [] →
      ∃ tr' f, Exec (Whole.Calmly ω) (Whole.new d st) tr' { w' with pending := [], file := f } ∧ netOf tr' = netOf (tr ++ [l]) ∧
        begunIn tr' = begunIn (tr ++ [l]) ∧ f.failed = false ∧ f.buf = [] ∧ f.disk = d ++ (begunIn (tr ++ [l])).flatMap fun q => requestLog q.1 q.2 := by
    rintro w'' hs rfl hl
    refine ⟨tr' ++ [l], f, h1.snoc ⟨hs, fun _ => rfl⟩, by rw [netOf_append, netOf_append, h2], by rw [begunIn_append, begunIn_append, h3], h4, h5, ?_⟩
    rw [begunIn_append, hl, List.append_nil, h6]
  cases hst with
  | feed c e x k1 k2 k3 k4 k5 => exact lift _ (.feed c e x k1 k2 k3 k4 k5) rfl rfl
  | kill c x k1 k2 k3 k4 => exact lift _ (.kill c x k1 k2 k3 k4) rfl rfl
  | read c k o x h' k1 k2 k3 => exact lift _ (.read c k o x h' k1 k2 k3) rfl rfl
  | bus e h' k1 k2 k3 => exact lift _ (.bus e h' k1 k2 k3) rfl rfl
  | pass e h' k1 k2 k3 => exact lift _ (.pass e h' k1 k2 k3) rfl rfl
  | execute a env r h' k1 k2 k3 => exact lift _ (.execute a env r h' k1 k2 k3) rfl rfl
  | crash a env h' k1 k2 k3 => exact lift _ (.crash a env h' k1 k2 k3) rfl rfl
  | record q b a k1 k2 k3 =>
    exact ⟨tr', f, h1, by rw [netOf_append, h2]; simp [netOf], by rw [begunIn_append, h3]; simp [begunIn], h4, h5,
      by rw [begunIn_append]; simpa [begunIn] using h6⟩
  | flush k1 k2 =>
    exact ⟨tr', f, h1, by rw [netOf_append, h2]; simp [netOf], by rw [begunIn_append, h3]; simp [begunIn], h4, h5,
      by rw [begunIn_append]; simpa [begunIn] using h6⟩
  | receive a m id q k1 k2 k3 k4 k5 =>
    have r1 : Whole.Calmly ω { w with pending := [], file := f } (.received q) { w with begun := some q, pending := if isLogged q.2 then [q] else [], file := f } :=
      ⟨.receive (s := { w with pending := [], file := f }) a m id q k1 k2 k3 k4 k5, fun _ => rfl⟩
    have hlen : (requestLog q.1 q.2).length ≤ n := hq q (by simp [begunIn])
    cases hl : isLogged q.2 with
    | false =>
      rw [hl] at r1
      have h0 : requestLog q.1 q.2 = [] := by simp [requestLog, hl]
      refine ⟨tr' ++ [.received q], f, h1.snoc r1, by rw [netOf_append, netOf_append, h2], by rw [begunIn_append, begunIn_append, h3], h4, h5, ?_⟩
      rw [begunIn_append, List.flatMap_append, h6, show begunIn [.received q] = [q] from rfl, List.flatMap_singleton, h0, List.append_nil]
    | true =>
      rw [hl] at r1
      let q' : Req := ⟨q.1, env0, q.2⟩
      have hf1 := writeRecord_ok hω hn h4 (by rw [h5]; exact Nat.zero_le _) (q := q') hl hlen
      obtain ⟨g1, g2⟩ := writeRecord_took ω f (q := q') hl
      obtain ⟨e1, e2, e3⟩ := flush_clean hω hn hf1 (g2 (by rw [h5]; exact Nat.zero_le _))
      have r2 : Whole.Calmly ω { w with begun := some q, pending := [q], file := f } (.recorded q)
          { w with begun := some q, pending := [], file := writeRecord ω f q' } :=
        ⟨.record (s := { w with begun := some q, pending := [q], file := f }) q' [] [] k1 k2 rfl, by simp⟩
      have r3 : Whole.Calmly ω { w with begun := some q, pending := [], file := writeRecord ω f q' } .flushed
          { w with begun := some q, pending := [], file := (writeRecord ω f q').flush ω } :=
        ⟨.flush (s := { w with begun := some q, pending := [], file := writeRecord ω f q' }) k1 k2, by simp⟩
      refine ⟨tr' ++ [.received q] ++ [.recorded q] ++ [.flushed], _, ((h1.snoc r1).snoc r2).snoc r3, ?_, ?_, e1, e2, ?_⟩
      · rw [netOf_append, netOf_append, netOf_append, netOf_append, h2]
        exact (List.append_nil _).trans (List.append_nil _)
      · rw [begunIn_append, begunIn_append, begunIn_append, begunIn_append, h3]
        exact (List.append_nil _).trans (List.append_nil _)
      · rw [e3, (g1 hf1).1, h5, h6, begunIn_append, List.flatMap_append, show begunIn [.received q] = [q] from rfl, List.flatMap_singleton]
        simp [q']

/-- C81: a crash is the last thing that happens, in the bus, at the log and on the disk as well: what has not left the buffer by then is lost. -/
theorem C81_last {before after : List Whole.Ev} {e : Net.Ev} {w : Whole.Sys} (he : (∃ c, e = .feed c .crash) ∨ ∃ n env, e = .pipe (.crash n env))
    (h : Exec (Whole.Step ω) (Whole.new d st) (before ++ .net e :: after) w) : after = [] := by
  refine h.last (fun s => s.dead = true ∨ s.hub.crashed = true) (fun s s' hs => ?_) fun s l s' hd hs => ?_
  · rcases he with ⟨c, rfl⟩ | ⟨n, env, rfl⟩
    · cases hs with
      | feed _ _ x _ _ _ ha _ => simp [Net.aside] at ha
      | kill => exact .inl rfl
    · cases hs with
      | pass _ h _ hb _ => simp [Whole.between] at hb
      | crash _ _ h _ _ hp => cases hp; exact .inr rfl
  · have hp : ∀ e p, Hub.Step s.hub e p → s.hub.crashed = false := fun e p hp => by cases hp <;> assumption
    cases hs with
    | feed c e x h1 h2 | kill c x h1 h2 | record q b a h1 h2 | flush h1 h2 => simp [h1, h2] at hd
    | receive n m id q h1 h2 => simp [h1, h2] at hd
    | read c n o x p h1 _ h2 | bus e p h1 _ h2 | pass e p h1 _ h2 | execute n env r p h1 _ h2 | crash n env p h1 _ h2 => simp [h1, hp _ _ h2] at hd

/-! ### examples -/

/-- The bytes of `SET k 1`. -/
abbrev setBytes : Bytes := b!"*3\r\n$3\r\nset\r\n$1\r\nk\r\n$1\r\n1\r\n"

theorem setBytes_parse : parse setBytes = .ok (.array (req [b!"set", b!"k", b!"1"])) [] := by rfl

/-- One client sends a request and is answered. -/
abbrev oneTrace (b : Bytes) (ws : List Bytes) (r : Resp) (u : Nat := 7) : List Net.Ev :=
  [.pipe (.connected u), .feed u (.arrived b), .read u 0 (.array (req ws)), .pipe (.taken 0),
    .pipe (.executed 0 env0 r), .pipe (.queued 0), .pipe (.answering 0), .pipe (.wrote u 0 r.encode)]

/-- One client sets a key and is answered. -/
abbrev setTrace : List Net.Ev := oneTrace setBytes [b!"set", b!"k", b!"1"] (.simple b!"OK")

theorem one_run' {u : Nat} (hu : u = 7 ∨ u = 8) {b : Bytes} {ws : List Bytes} {st' : State} {r : Resp} (hp : parse b = .ok (.array (req ws)) [])
    (hh : handle env0 st (req ws) = .ok (st', r)) :
    ∃ s, Exec Net.Step (Net.new st) (oneTrace b ws r u) s ∧ s.out u = r.encode ∧ s.pipe.engine = none ∧ s.pipe.db = st' ∧ s.pipe.worker = none ∧ s.pipe.buffer = [] ∧
      s.dead = false ∧ s.pipe.crashed = false := by
  rcases hu with rfl | rfl <;> exact ⟨_,
    .cons (.pipe _ _ rfl rfl (.connect _ b!"a" rfl rfl (fun _ => by simp [Net.new, Pipe.new])))
    (.cons (.feed _ _ _ rfl rfl (by simp [upd]) rfl (.arrive _ rfl))
    (.cons (.read _ 0 _ _ _ rfl (.read _ [] rfl hp) (.read _ b!"a" _ rfl rfl))
    (.cons (.pipe _ _ rfl rfl (.take 0 _ [] [] rfl rfl rfl))
    (.cons (.pipe _ _ rfl rfl (.execute 0 _ b!"a" (req ws) env0 _ r rfl rfl rfl hh))
    (.cons (.pipe _ _ rfl rfl (.queue 0 _ [] [] rfl rfl (Nat.zero_lt_succ 99)))
    (.cons (.pipe _ _ rfl rfl (.answer 0 _ [] b!"a" r _ rfl rfl rfl rfl rfl))
    (.one (.pipe _ _ rfl rfl (.write 0 _ _ rfl rfl))))))))), rfl, rfl, rfl, rfl, rfl, rfl, rfl⟩

theorem one_run {b : Bytes} {ws : List Bytes} {st' : State} {r : Resp} (hp : parse b = .ok (.array (req ws)) []) (hh : handle env0 st (req ws) = .ok (st', r)) :
    ∃ s, Exec Net.Step (Net.new st) (oneTrace b ws r) s ∧ s.out 7 = r.encode ∧ s.pipe.engine = none ∧ s.pipe.db = st' ∧ s.pipe.worker = none ∧ s.pipe.buffer = [] ∧
      s.dead = false ∧ s.pipe.crashed = false := one_run' (.inl rfl) hp hh

theorem set_run : ∃ s, Exec Net.Step (Net.new State.empty) setTrace s ∧ s.out 7 = b!"+OK\r\n" ∧ s.pipe.engine = none ∧ s.pipe.db.global.get b!"k" ≠ none := by
  obtain ⟨s, h1, h2, h3, h4, -⟩ := one_run (st := State.empty) setBytes_parse rfl
  exact ⟨s, h1, h2, h3, by rw [h4]; nofun⟩

theorem seen_idle {w : Whole.Sys} {n : Net.Sys} (hs : Seen st w n) (he : n.pipe.engine = none) : w.begun = none := by
  by_contra hb
  obtain ⟨q, hq⟩ := Option.ne_none_iff_exists'.1 hb
  obtain ⟨k, m, id, h1, -⟩ := hs.begun q hq
  have := hs.sim.engine
  rw [h1, he] at this
  cases this

/-- The full claim: the next server begins with what this one stores, once everything in the buffer has gone to the disk. -/
def KeptOverNetwork : Prop := ∀ (ω : Nat → Nat) (tr : List Whole.Ev) (w : Whole.Sys) (envs : Nat → Env) (dbs : DBs), Exec (Whole.Step ω) (Whole.new [] State.empty) tr w →
  w.begun = none → (∀ i, (envs i).ord.Fair) → fromFile noDBs envs (w.file.flush ω).disk = .ok dbs → ∀ a, Abs w.hub.db a → Abs (dbs 1) a

/-- C81: a client has been told that its value is set, and the next server does not have it. -/
theorem C81_false : ¬ KeptOverNetwork := by
  intro hk
  obtain ⟨s, h1, -, h3, h4⟩ := set_run
  obtain ⟨tr, w, g1, g2, g3, g4⟩ := whole_quiet (ω := fun _ => 0) (d := []) h1
  have hf := untouched_file g1 ⟨g3.1, g3.2.1⟩
  obtain ⟨h, e, k1, k2, k3, k4, k5, k6, k7, k8, k9⟩ := C81_log g1 (seen_idle g4 h3)
  obtain ⟨done, written, r1, r2, -⟩ := runInv k3
  obtain ⟨n, hn, -⟩ := whole_net g1
  obtain ⟨a, t1, t2⟩ := serve_trace abs_empty (fun q hq => by
    obtain ⟨q', hq', rfl⟩ := List.mem_map.1 hq
    rw [k4, k5] at r1
    simp only [Option.toList_none, List.append_nil] at r1
    subst r1
    obtain ⟨-, x, hx, hx'⟩ := executed_wire hn k1 hq'
    simp only [g2, doneIn, List.mem_singleton] at hx
    subst hx
    show q'.env.ord.Fair
    rw [hx']; exact env0_fair) r2
  rw [k6] at t2
  have := hk _ tr w (fun _ => env0) noDBs g1 (seen_idle g4 h3) (fun _ => env0_fair) (by rw [hf]; rfl) a t2
  rw [← g4.sim.db] at t2
  have e1 := t2.strs b!"k"
  have e2 := this.strs b!"k"
  rw [← e1] at e2
  exact h4 e2.symm

/-- What the engine has begun with in such a run. -/
theorem one_begun {ω : Nat → Nat} {tr : List Whole.Ev} {w : Whole.Sys} {b : Bytes} {ws : List Bytes} {r : Resp} {u : Nat} (g1 : Exec (Whole.Step ω) (Whole.new d st) tr w)
    (g2 : netOf tr = oneTrace b ws r u) (g3 : Quiet tr) (hb : w.begun = none) : begunIn tr = [(stamp0, req ws)] := by
  obtain ⟨h, e, k1, k2, -⟩ := C81_log g1 hb
  rw [g2] at k1
  unfold Executed at k1
  simp only [doneIn] at k1
  obtain ⟨q, h', ⟨-, c, o, hq, ho⟩, hh, rfl⟩ := List.forall₂_cons_left_iff.1 k1
  rw [List.forall₂_nil_left_iff] at hh
  subst hh
  have hs : q.stamp = stamp0 := by
    refine g3.2.2 (recordOf q) ?_
    have : recordOf q ∈ begunIn tr := by rw [← k2]; simp
    simp only [begunIn, List.mem_filterMap] at this
    obtain ⟨x, hx, hx'⟩ := this
    cases x <;> simp at hx'
    subst hx'
    exact hx
  simp only [askedBy] at hq
  split at hq <;> simp at hq
  subst hq
  rw [← k2]
  simp [recordOf, hs, ArrayOf] at ho ⊢
  exact ho.symm

theorem one_life {b : Bytes} {ws : List Bytes} {st' : State} {r : Resp} (hp : parse b = .ok (.array (req ws)) [])
    (hh : handle env0 st (req ws) = .ok (st', r)) (hl : (requestLog stamp0 (req ws)).length ≤ 100000) :
    ∃ tr w, Exec (Whole.Calmly fun _ => 100000) (Whole.new d st) tr w ∧ netOf tr = oneTrace b ws r ∧ w.out 7 = r.encode ∧ Settled w ∧
      w.file.disk = d ++ requestLog stamp0 (req ws) ∧ begunIn tr = [(stamp0, req ws)] := by
  obtain ⟨s, h1, h2, h3, -⟩ := one_run hp hh
  obtain ⟨tr, w, g1, g2, g3, g4⟩ := whole_quiet (ω := fun _ => 100000) (d := d) h1
  have hb := seen_idle g4 h3
  have hrec := one_begun g1 g2 g3 hb
  obtain ⟨tr', f, m1, m2, m3, m4, m5, m6⟩ := C81_kept (n := 100000) (fun _ => Nat.le_refl _) (by decide) g1 (by
    rw [hrec]
    intro q hq
    rw [List.mem_singleton.1 hq]
    exact hl)
  exact ⟨tr', _, m1, m2.trans g2, by rw [← h2, ← g4.out], ⟨hb, rfl, m4, m5⟩, by rw [m6, hrec]; simp, m3.trans hrec⟩

theorem one_plain {tr : List Whole.Ev} {b : Bytes} {ws : List Bytes} {r : Resp} {u : Nat} (hn : netOf tr = oneTrace b ws r u) (hb : begunIn tr = [(stamp0, req ws)])
    (ho : (sent ws).Occurs ∧ ¬ (sent ws).Is b!"ltrim" ∧ ¬ (sent ws).Is b!"spop" ∧ ∀ o ∈ (sent ws).objs, TextObj o) : Plainly tr := by
  refine ⟨fun q hq => ?_, fun x hx => ?_⟩
  · rw [hb, List.mem_singleton] at hq
    obtain ⟨s1, s2, s3, s4⟩ := ho
    obtain ⟨st, env, objs⟩ := q
    simp only [recordOf, Prod.mk.injEq] at hq
    obtain ⟨rfl, rfl⟩ := hq
    exact ⟨⟨s1.time, s1.id, s1.host, s1.small⟩, s2, s3, s4⟩
  · simp only [hn, doneIn, List.mem_singleton] at hx
    subst hx
    exact env0_fair

/-- What meets the hypotheses of `C81_log`, `C81_kept` and `C81_restart_partial`: a client sets a key, and a client of the next server gets it. -/
example : ∃ tr tr' d', NetLives Whole.Calmly [tr, tr'] d' ∧ Plainly tr ∧ Plainly tr' ∧ netOf tr = setTrace ∧
    netOf tr' = oneTrace getBytes [b!"get", b!"k"] (.bulk b!"1") := by
  obtain ⟨tr, w, h1, h2, -, h3, h4, h5⟩ := one_life (d := []) (st := State.empty) setBytes_parse rfl (set12_small set1 (by simp))
  have e : fromFile noDBs (fun _ => env0) w.file.disk = .ok (fun j => if j = 1 then ⟨[(b!"k", Str.new b!"1")], [], [], []⟩ else noDBs j) := by
    rw [h4]
    have := fromFile_history (h := [set1]) (by simpa using ⟨set1_ok.1, set1_ok.2.2.2⟩) noDBs fun _ => env0
    rw [show historyLog [set1] = [] ++ requestLog stamp0 (req [b!"set", b!"k", b!"1"]) from List.append_nil _] at this
    rw [this, show historyRecords [set1] = [reqLog set1] from rfl, build_cons set1_ok.1.wire (c := .set b!"k" b!"1") rfl]
    rfl
  obtain ⟨tr', w', g1, g2, -, g3, g4, g5⟩ := one_life (d := w.file.disk) (st := ⟨[(b!"k", Str.new b!"1")], [], [], []⟩) getBytes_parse rfl (by decide)
  exact ⟨tr, tr', _, .next (.next .none ⟨_, _, fun _ => env0_fair, rfl, rfl⟩ h1 h3) ⟨_, _, fun _ => env0_fair, e, rfl⟩ g1 g3,
    one_plain h2 h5 set1_ok, one_plain g2 g5 ⟨sent_occurs, sent_is (by decide), sent_is (by decide), sent_text⟩, h2, g2⟩

theorem netLives_mono {R R' : (Nat → Nat) → Whole.Sys → Whole.Ev → Whole.Sys → Prop} (hR : ∀ ω w e w', R ω w e w' → R' ω w e w')
    {trs : List (List Whole.Ev)} {d : Bytes} (hl : NetLives R trs d) : NetLives R' trs d := by
  induction hl with
  | none => exact .none
  | @next _ d st ω _ _ _ hb hx hw ih =>
    exact .next ih hb (hx.inv (P := fun tr w => Exec (R' ω) (Whole.new d st) tr w) .nil fun _ _ _ _ _ ih hst => ih.snoc (hR _ _ _ _ hst)) hw

theorem plainly_really {tr : List Whole.Ev} (h : Plainly tr) : Really tr :=
  ⟨fun r hr => (h.1 ⟨r.1, env0, r.2⟩ hr).1, h.2⟩

/-- What meets the hypotheses of `C81_exact`: the same, and with it everything that meets those of `C81_restart_partial`. -/
example {trs : List (List Whole.Ev)} {d : Bytes} (hl : NetLives Whole.Calmly trs d) (hq : ∀ tr ∈ trs, Plainly tr) :
    NetLives Whole.Step trs d ∧ ∀ tr ∈ trs, Really tr := ⟨netLives_mono (fun _ _ _ _ h => h.1) hl, fun tr h => plainly_really (hq tr h)⟩

/-- The hypotheses of `C81_last`: a client kills the server with the bytes of a length of -2. -/
example : ∃ before w, Exec (Whole.Step ω) (Whole.new d State.empty) (before ++ [.net (.feed 7 .crash)]) w ∧ netOf before = [.pipe (.connected 7), .feed 7 (.arrived b!"*1\r\n$-2\r\n")] := by
  have h : ∃ s, Exec Net.Step (Net.new State.empty) [.pipe (.connected 7), .feed 7 (.arrived b!"*1\r\n$-2\r\n"), .feed 7 .crash] s :=
    ⟨_, .cons (.pipe _ _ rfl rfl (.connect 7 b!"a" rfl rfl (fun _ => by simp [Net.new, Pipe.new])))
      (.cons (.feed 7 _ _ rfl rfl (by simp [upd]) rfl (.arrive _ rfl)) (.one (.crash 7 _ rfl rfl (by simp [upd]) (.crash rfl rfl))))⟩
  obtain ⟨s, h⟩ := h
  obtain ⟨tr, w, h1, h2, -, -⟩ := whole_quiet (ω := ω) (d := d) h
  have hm : Net.Ev.feed 7 .crash ∈ netOf tr := by rw [h2]; simp
  simp only [netOf, List.mem_filterMap] at hm
  obtain ⟨x, hx, hx'⟩ := hm
  cases x <;> simp at hx'
  subst hx'
  obtain ⟨before, after, rfl⟩ := List.append_of_mem hx
  obtain rfl := C81_last (.inl ⟨7, rfl⟩) h1
  refine ⟨before, w, h1, ?_⟩
  rw [netOf_append, show netOf [.net (.feed 7 .crash)] = [.feed 7 .crash] from rfl] at h2
  exact (List.append_inj' (h2 : _ = [Net.Ev.pipe (.connected 7), Net.Ev.feed 7 (.arrived b!"*1\r\n$-2\r\n")] ++ [Net.Ev.feed 7 .crash]) rfl).1

end Verif.Props
