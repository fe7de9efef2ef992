import Verif.Spec.Proc
import Verif.Props.Full
import Verif.Props.Stop

/-! Invariants of the process. -/

namespace Verif

open Spec
open Fut (upd)

variable {m : Bool} {ω : Nat → Nat} {d : Bytes} {st : State}

theorem fullOf_append (a b : List Proc.Ev) : fullOf (a ++ b) = fullOf a ++ fullOf b := List.filterMap_append

theorem stopOf_append (a b : List Proc.Ev) : stopOf (a ++ b) = stopOf a ++ stopOf b := List.filterMap_append

/-- The server's part in a step. -/
theorem full_within {f f' : Full.Sys} {e : Full.Ev} (hs : Full.Step ω f e f') :
    (∃ w, Proc.within e = some w ∧ Whole.Step ω f.whole w f'.whole) ∨ Proc.within e = none ∧ f'.whole = f.whole := by
  cases hs with
  | whole e w _ h | send _ _ w _ _ _ h | kill _ w _ h => exact .inl ⟨_, rfl, h⟩
  | read _ _ _ w _ h | finish _ _ w _ _ h | wrote _ _ _ w _ h | refuse _ _ _ w _ _ h | fail _ _ _ w _ h => exact .inl ⟨_, rfl, h⟩
  | readCall | cut | closeCall | writeCall | own => exact .inr ⟨rfl, rfl⟩

theorem whole_file {w w' : Whole.Sys} {e : Whole.Ev} (hs : Whole.Step ω w e w') :
    (∃ q : Req, e = .recorded (q.stamp, q.objs) ∧ w'.file = writeRecord ω w.file q) ∨ (e = .flushed ∧ w'.file = w.file.flush ω) ∨
      ((∀ q, e ≠ .recorded q) ∧ e ≠ .flushed ∧ w'.file = w.file) := by
  cases hs with
  | record q => exact .inl ⟨q, rfl, rfl⟩
  | flush => exact .inr (.inl ⟨rfl, rfl⟩)
  | _ => exact .inr (.inr ⟨by simp, by simp, rfl⟩)

theorem stop_log {cfg : Stop.Config} {s s' : Stop.Sys} {x : Stop.Ev} (hs : Stop.Step cfg ω s x s') :
    (∃ b, x = .logged b ∧ s'.log = (s.log.write ω b).1) ∨ ((x = .replicaFlush ∨ ∃ i, x = .did i .flush) ∧ s'.log = s.log.flush ω) ∨
      ((∀ b, x ≠ .logged b) ∧ x ≠ .replicaFlush ∧ (∀ i, x ≠ .did i .flush) ∧ s'.log = s.log) := by
  obtain ⟨-, -, hs⟩ := hs
  cases hs with
  | logged b => exact .inl ⟨b, rfl, rfl⟩
  | replicaFlush => exact .inr (.inl ⟨.inl rfl, rfl⟩)
  | flush i => exact .inr (.inl ⟨.inr ⟨i, rfl⟩, rfl⟩)
  | _ => exact .inr (.inr ⟨by simp, by simp, by simp, rfl⟩)

theorem proc_log {s s' : Proc.Sys} {e : Proc.Ev} (hs : Proc.Step m ω s e s') (hl : s.stop.log = s.full.whole.file) :
    s'.stop.log = s'.full.whole.file := by
  cases hs with
  | full e f _ h1 h2 =>
    show s.stop.log = f.whole.file
    rcases full_within h2 with ⟨w, h3, h4⟩ | ⟨-, h3⟩
    · rcases whole_file h4 with ⟨q, rfl, h5⟩ | ⟨rfl, -⟩ | ⟨-, -, h5⟩
      · rw [h5, hl, writeRecord]
        cases hp : packLog (newLog q.stamp ((q.objs.head?.bind text).getD []) 1 q.objs) with
        | none => rfl
        | some b => exact absurd (.logged q b hp) ((h1 _ h3).2 _)
      · exact absurd .replica ((h1 _ h3).2 _)
      · rw [h5, hl]
    · rw [h3, hl]
  | both e x w f t _ h1 h2 _ h3 h4 =>
    show t.log = f.whole.file
    rcases full_within h3 with ⟨w', h5, h6⟩ | ⟨h5, -⟩
    · rw [h1] at h5
      cases h5
      rcases stop_log h4 with ⟨b, rfl, g⟩ | ⟨hx, g⟩ | ⟨g1, g2, g3, g⟩
      · cases h2 with
        | logged q b hp =>
          rcases whole_file h6 with ⟨q', e1, h7⟩ | ⟨e1, -⟩ | ⟨e1, -, -⟩
          · simp only [Whole.Ev.recorded.injEq, Prod.mk.injEq] at e1
            rw [g, h7, writeRecord, ← e1.1, ← e1.2, hp, hl]
          · cases e1
          · exact absurd rfl (e1 _)
      · have : w = .flushed := by
          rcases hx with rfl | ⟨i, rfl⟩ <;> cases h2 <;> rfl
        subst this
        rcases whole_file h6 with ⟨q', e1, h7⟩ | ⟨-, h7⟩ | ⟨-, e1, -⟩
        · cases e1
        · rw [g, h7, hl]
        · exact absurd rfl e1
      · rcases whole_file h6 with ⟨q', hq, h7⟩ | ⟨rfl, h7⟩ | ⟨-, -, h7⟩
        · cases h2 with
          | logged q b hp => exact absurd rfl (g1 b)
          | _ => cases hq
        · cases h2 with
          | replica => exact absurd rfl g2
          | flush i => exact absurd rfl (g3 i)
        · rw [g, h7, hl]
    · rw [h1] at h5; cases h5
  | stop x t _ h1 h2 =>
    rcases stop_log h2 with ⟨b, rfl, g⟩ | ⟨hx, g⟩ | ⟨-, -, -, g⟩
    · cases h1
    · rcases hx with rfl | ⟨i, rfl⟩ <;> cases h1
    · exact g.trans hl
  | told i t _ _ _ h =>
    rcases stop_log h with ⟨b, h1, g⟩ | ⟨hx, g⟩ | ⟨-, -, -, g⟩
    · cases h1
    · rcases hx with h1 | ⟨i, h1⟩ <;> cases h1
    · exact g.trans hl
  | engineLeft => exact hl

theorem proc_step {s s' : Proc.Sys} {e : Proc.Ev} (hs : Proc.Step m ω s e s') :
    Exec (Full.Step ω) s.full (fullOf [e]) s'.full ∧ Exec (Stop.Step ⟨m, true⟩ ω) s.stop (stopOf [e]) s'.stop := by
  cases hs with
  | full e f _ _ h => exact ⟨.one h, .nil⟩
  | both e x w f t _ _ _ _ h1 h2 => exact ⟨.one h1, .one h2⟩
  | stop x t _ _ h | told i t _ _ _ h => exact ⟨.nil, .one h⟩
  | engineLeft => exact ⟨.nil, .nil⟩

theorem proc_exec {tr : List Proc.Ev} {s : Proc.Sys} (h : Exec (Proc.Step m ω) (Proc.new d st) tr s) :
    Exec (Full.Step ω) (Full.new d st) (fullOf tr) s.full ∧ Exec (Stop.Step ⟨m, true⟩ ω) (Stop.new d) (stopOf tr) s.stop ∧ s.stop.log = s.full.whole.file := by
  refine h.inv (P := fun tr s => Exec (Full.Step ω) (Full.new d st) (fullOf tr) s.full ∧ Exec (Stop.Step ⟨m, true⟩ ω) (Stop.new d) (stopOf tr) s.stop ∧
    s.stop.log = s.full.whole.file) ⟨.nil, .nil, rfl⟩ ?_
  rintro tr s e s' - ⟨h1, h2, h3⟩ hs
  obtain ⟨g1, g2⟩ := proc_step hs
  exact ⟨by rw [fullOf_append]; exact h1.append g1, by rw [stopOf_append]; exact h2.append g2, proc_log hs h3⟩

/-- What has to have happened to a request before. -/
structure PipeOrder (tr : List Pipe.Ev) (s : Pipe.Sys) : Prop where
  read : ∀ c n o, .read c n o ∈ tr → n < s.next
  waits : ∀ n m, (n, m) ∈ s.requests → n < s.next
  taken : ∀ n, .taken n ∈ tr → n < s.next
  engine : ∀ n m, s.engine = some (n, m) → .taken n ∈ tr
  exe : ∀ n env r, .executed n env r ∈ tr → .taken n ∈ tr
  crash : ∀ n env, .crash n env ∈ tr → .taken n ∈ tr
  queued : ∀ n, .queued n ∈ tr → ∃ env r, .executed n env r ∈ tr
  out : ∀ n m, (n, m) ∈ s.responses → ∃ env r, .executed n env r ∈ tr
  buffer : ∀ n m, (n, m) ∈ s.buffer → .queued n ∈ tr
  answering : ∀ n, .answering n ∈ tr → .queued n ∈ tr
  worker : ∀ n x, s.worker = some (n, x) → .queued n ∈ tr
  wrote : ∀ c n b, .wrote c n b ∈ tr → .queued n ∈ tr

set_option maxHeartbeats 4000000 in
theorem pipeOrder {tr : List Pipe.Ev} {s : Pipe.Sys} (h : Exec Pipe.Step (Pipe.new st) tr s) : PipeOrder tr s := by
  refine h.inv (P := PipeOrder) (by constructor <;> simp [Pipe.new]) ?_
  rintro tr s l s' - ⟨h1, h2, h3, h4, h5, h6, h7, h8, h9, h10, h11, h12⟩ hs
  cases hs <;> constructor <;> grind

theorem seenOver_append (a b : List Proc.Ev) : seenOver (a ++ b) = seenOver a ++ seenOver b := by
  simp [seenOver, fullOf_append, Props.seenIn_append]

theorem proc_pipe {tr : List Proc.Ev} {s : Proc.Sys} (h : Exec (Proc.Step m ω) (Proc.new d st) tr s) :
    ∃ p, Exec Pipe.Step (Pipe.new st) (pipeOf (seenOver tr)) p ∧ Props.Sim s.full.whole.hub p := by
  obtain ⟨n, h1, h2⟩ := Props.whole_net (full_exec (proc_exec h).1).1
  exact ⟨_, (Props.net_split h1).2.1, h2.sim⟩

/-- What a step shows of the way of a request. -/
theorem seen_within {e : Pipe.Ev} {x : Full.Ev} (h : e ∈ pipeOf (seenIn [x])) (hr : ∀ c n o, e ≠ .read c n o) :
    Proc.within x = some (.net (.pipe e)) := by
  cases x with
  | line c x => simp [seenIn, wholeOf, netOf, pipeOf] at h
  | whole w | both w c x =>
    cases w with
    | net y =>
      cases y with
      | pipe y => simp [seenIn, wholeOf, netOf, pipeOf] at h; simp [Proc.within, h]
      | read c n o => simp [seenIn, wholeOf, netOf, pipeOf] at h; exact absurd h (hr _ _ _)
      | feed => simp [seenIn, wholeOf, netOf, pipeOf] at h
    | _ => simp [seenIn, wholeOf, netOf, pipeOf] at h

theorem within_seen {e : Pipe.Ev} {x : Full.Ev} (h : Proc.within x = some (.net (.pipe e))) : e ∈ pipeOf (seenIn [x]) := by
  cases x <;> simp [Proc.within] at h <;> subst h <;> simp [seenIn, wholeOf, netOf, pipeOf]

theorem within_read {c n : Nat} {o : Resp} {x : Full.Ev} (h : Proc.within x = some (.net (.read c n o))) : .read c n o ∈ pipeOf (seenIn [x]) := by
  cases x <;> simp [Proc.within] at h <;> subst h <;> simp [seenIn, wholeOf, netOf, pipeOf]

theorem mem_executedOf {tr : List Pipe.Ev} {n : Nat} {env : Env} {r : Resp} : (n, env, r) ∈ executedOf tr ↔ .executed n env r ∈ tr := by
  induction tr with
  | nil => simp [executedOf]
  | cons e tr ih => cases e <;> simp [executedOf, ih]

theorem hears_true {s : Proc.Sys} {w : Option Whole.Ev} {n : Nat} (h : s.hears w n = true) :
    s.unheard n = true ∨ s.stop.requestTopic = false ∧ ∃ c o, w = some (.net (.read c n o)) := by
  unfold Proc.Sys.hears at h
  split at h
  · rename_i c k o
    split at h
    · exact .inl h
    · rename_i ht
      by_cases hk : n = k
      · exact .inr ⟨by simpa using ht, c, o, by rw [hk]⟩
      · exact .inl (by simpa [upd, hk] using h)
  · exact .inl h

theorem says_true {s : Proc.Sys} {w : Option Whole.Ev} {n : Nat} (h : s.says w n = true) :
    s.unsaid n = true ∨ s.stop.responseTopic = false ∧ ∃ env r, w = some (.net (.pipe (.executed n env r))) := by
  unfold Proc.Sys.says at h
  split at h
  · rename_i k env r
    split at h
    · exact .inl h
    · rename_i ht
      by_cases hk : n = k
      · exact .inr ⟨by simpa using ht, env, r, by rw [hk]⟩
      · exact .inl (by simpa [upd, hk] using h)
  · exact .inl h

theorem whole_executed {w w' : Whole.Sys} {n : Nat} {env : Env} {r : Resp} (hs : Whole.Step ω w (.net (.pipe (.executed n env r))) w') :
    ∃ m, w.hub.engine = .has (n, m) := by
  cases hs with
  | pass _ _ _ hb => simp [Whole.between] at hb
  | execute _ _ _ _ _ _ q3 =>
    cases q3 with
    | execute _ m' _ _ _ _ _ _ _ q4 => exact ⟨_, q4⟩

/-- What is not published is not received. -/
structure ProcInv (tr : List Proc.Ev) (s : Proc.Sys) : Prop where
  unheard : ∀ n, s.unheard n = true → (∃ c o, .read c n o ∈ pipeOf (seenOver tr)) ∧ .taken n ∉ pipeOf (seenOver tr)
  unsaid : ∀ n, s.unsaid n = true → (∃ env r, .executed n env r ∈ pipeOf (seenOver tr)) ∧ .queued n ∉ pipeOf (seenOver tr)

theorem procInv {tr : List Proc.Ev} {s : Proc.Sys} (h : Exec (Proc.Step m ω) (Proc.new d st) tr s) : ProcInv tr s := by
  refine h.inv (P := ProcInv) (by constructor <;> simp [Proc.new]) ?_
  rintro tr s l s' hx ⟨h1, h2⟩ hs
  obtain ⟨p, k1, k2⟩ := proc_pipe hx
  have ord := pipeOrder k1
  have inv := pipeInv k1
  have keep : fullOf [l] = [] → pipeOf (seenOver (tr ++ [l])) = pipeOf (seenOver tr) := fun e => by
    rw [seenOver_append, Props.pipeOf_append, show seenOver [l] = seenIn (fullOf [l]) from rfl, e]; simp [seenIn, wholeOf, netOf, pipeOf]
  cases hs with
  | stop x t _ _ _ | told i t _ _ _ _ => constructor <;> rw [keep rfl] <;> assumption
  | engineLeft => constructor <;> rw [keep rfl] <;> assumption
  | both e x w f t _ e1 e2 e3 _ _ =>
    have hp : pipeOf (seenOver (tr ++ [.both e x])) = pipeOf (seenOver tr) ++ pipeOf (seenIn [e]) := by
      rw [seenOver_append, Props.pipeOf_append]; rfl
    constructor <;> rw [hp]
    · intro n (hn : s.unheard n = true)
      obtain ⟨⟨c, o, g1⟩, g2⟩ := h1 n hn
      refine ⟨⟨c, o, List.mem_append_left _ g1⟩, fun g => ?_⟩
      rcases List.mem_append.1 g with g | g
      · exact g2 g
      · have := seen_within g (by simp)
        rw [e1] at this; cases this
        exact absurd (e3.1 n rfl) (by simp [hn])
    · intro n (hn : s.unsaid n = true)
      obtain ⟨⟨c, o, g1⟩, g2⟩ := h2 n hn
      refine ⟨⟨c, o, List.mem_append_left _ g1⟩, fun g => ?_⟩
      rcases List.mem_append.1 g with g | g
      · exact g2 g
      · have := seen_within g (by simp)
        rw [e1] at this; cases this
        exact absurd (e3.2.1 n rfl) (by simp [hn])
  | full e f _ e1 e2 =>
    have hp : pipeOf (seenOver (tr ++ [.full e])) = pipeOf (seenOver tr) ++ pipeOf (seenIn [e]) := by
      rw [seenOver_append, Props.pipeOf_append]; rfl
    constructor <;> rw [hp]
    · intro n hn
      have hc := hears_true hn
      rcases hc with hc | ⟨-, c, o, hc⟩
      · obtain ⟨⟨c, o, g1⟩, g2⟩ := h1 n hc
        refine ⟨⟨c, o, List.mem_append_left _ g1⟩, fun g => ?_⟩
        rcases List.mem_append.1 g with g | g
        · exact g2 g
        · have := seen_within g (by simp)
          exact absurd ((e1 _ this).1.1 n rfl) (by simp [hc])
      · refine ⟨⟨c, o, List.mem_append_right _ (within_read hc)⟩, fun g => ?_⟩
        rcases List.mem_append.1 g with g | g
        · rcases full_within e2 with ⟨w, q1, q2⟩ | ⟨q1, -⟩
          · rw [hc] at q1; cases q1
            obtain ⟨-, hh, -, q3, -⟩ := whole_read q2
            have := ord.taken n g
            rw [k2.next] at this
            cases q3
            omega
          · rw [hc] at q1; cases q1
        · have := seen_within g (by simp)
          rw [hc] at this; cases this
    · intro n hn
      have hc := says_true hn
      rcases hc with hc | ⟨-, env, r, hc⟩
      · obtain ⟨⟨c, o, g1⟩, g2⟩ := h2 n hc
        refine ⟨⟨c, o, List.mem_append_left _ g1⟩, fun g => ?_⟩
        rcases List.mem_append.1 g with g | g
        · exact g2 g
        · have := seen_within g (by simp)
          exact absurd ((e1 _ this).1.2.1 n rfl) (by simp [hc])
      · refine ⟨⟨env, r, List.mem_append_right _ (within_seen hc)⟩, fun g => ?_⟩
        rcases List.mem_append.1 g with g | g
        · rcases full_within e2 with ⟨w, q1, q2⟩ | ⟨q1, -⟩
          · rw [hc] at q1; cases q1
            obtain ⟨env', r', g⟩ := ord.queued n g
            have a1 : 0 < cnt (executedOf (pipeOf (seenOver tr))) n := cnt_pos.2 ⟨_, (mem_executedOf).2 g⟩
            have a2 := inv.one n
            have a3 := inv.reads n
            have : cnt p.engine.toList n = 1 := by
              have he := k2.engine
              obtain ⟨m', q4⟩ := whole_executed q2
              rw [q4] at he
              simp [he]
            omega
          · rw [hc] at q1; cases q1
        · have := seen_within g (by simp)
          rw [hc] at this; cases this

end Verif
