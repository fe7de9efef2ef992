import Verif.Props.Crash
import Verif.Props.Log
import Verif.Spec.Mirror
import Verif.Spec.LTS
import Verif.Lemmas.LTS

/-! # C63 – what a replica takes over from its master -/

namespace Verif.Props

open Spec PFile
open Fut (upd)

/-- A run of a master with a database file, empty at first, that receives the requests `h`, while replicas come and go. No request is received
before the record of the previous one has been written (see `C34_false`). -/
def Serving (ω : Nat → Nat) (h : List Req) (tr : List Master.Ev) (s : Master.Sys) : Prop :=
  Exec (Master.Step (Unhurried ω) ω) (Master.new (Engine.start [] h) true) tr s

theorem step_grows {ω : Nat → Nat} {e e' : Engine} (hs : Engine.Step ω e e') : e.file.disk <+: e'.file.disk := by
  cases hs with
  | receive => exact List.prefix_rfl
  | execute => exact List.prefix_rfl
  | write hp =>
    simp only [writeRecord]
    split
    · exact (write_took ω _ _).1.grows
    · exact List.prefix_rfl
  | flush => exact flush_grows ω _

theorem unhurried_grows {ω : Nat → Nat} {e e' : Engine} (h : Unhurried ω e e') : e.file.disk <+: e'.file.disk := step_grows h.1

theorem unhurried_flush {ω : Nat → Nat} (e : Engine) : Unhurried ω e { e with file := e.file.flush ω } := ⟨.flush, .inl rfl⟩

theorem mirror_file {ω : Nat → Nat} {R : Engine → Engine → Prop} {s0 s : Master.Sys} {tr : List Master.Ev} (h : Exec (Master.Step R ω) s0 tr s) :
    s.file = s0.file := by
  refine h.inv (P := fun _ s => s.file = s0.file) rfl fun tr s l s' _ ih hs => ?_
  cases hs <;> exact ih

theorem mirror_runs {ω : Nat → Nat} {R : Engine → Engine → Prop} (hR : ∀ e : Engine, R e { e with file := e.file.flush ω }) {s0 s : Master.Sys}
    {tr : List Master.Ev} (hf : s0.file = true) (h : Exec (Master.Step R ω) s0 tr s) : Relation.ReflTransGen R s0.engine s.engine := by
  refine h.inv (P := fun _ s => Relation.ReflTransGen R s0.engine s.engine) .refl fun tr s l s' hx ih hs => ?_
  have hfs := mirror_file hx
  rw [hf] at hfs
  cases hs with
  | engine he => simp only [Master.noLog, hfs, if_true]; exact ih.tail he
  | flush c hp hf => exact ih.tail (hR _)
  | flushFails c hp hf => exact ih.tail (hR _)
  | _ => exact ih

theorem runs_grows {ω : Nat → Nat} {e e' : Engine} (h : Relation.ReflTransGen (Unhurried ω) e e') : e.file.disk <+: e'.file.disk := by
  induction h with
  | refl => exact List.prefix_rfl
  | tail _ hs ih => exact ih.trans (unhurried_grows hs)

/-- What holds of connection `c` when the log contained `D` at the flush. -/
def SendInv (D : Bytes) (c : Nat) (s : Master.Sys) : Prop :=
  match s.pcs c with
  | .flushed => D <+: s.engine.file.disk ∧ s.stream c = []
  | .opened => D <+: s.engine.file.disk ∧ s.stream c = []
  | .copied b => D <+: b ∧ b <+: s.engine.file.disk ∧ s.stream c = []
  | .sending b n => D <+: b ∧ b <+: s.engine.file.disk ∧ s.stream c = (transfer b).take n
  | .left => ∃ b, D <+: b ∧ b <+: s.engine.file.disk ∧ s.stream c <+: transfer b
  | _ => D = [] ∧ s.stream c = []

theorem sendInv_mono {D : Bytes} {c : Nat} {s s' : Master.Sys} (h : SendInv D c s) (hp : s'.pcs c = s.pcs c) (hs : s'.stream c = s.stream c)
    (hd : s.engine.file.disk <+: s'.engine.file.disk) : SendInv D c s' := by
  unfold SendInv at *
  rw [hp, hs]
  generalize s.pcs c = p at *
  cases p with
  | flushed => exact ⟨h.1.trans hd, h.2⟩
  | opened => exact ⟨h.1.trans hd, h.2⟩
  | copied b => exact ⟨h.1, h.2.1.trans hd, h.2.2⟩
  | sending b n => exact ⟨h.1, h.2.1.trans hd, h.2.2⟩
  | left => obtain ⟨b, h1, h2, h3⟩ := h; exact ⟨b, h1, h2.trans hd, h3⟩
  | absent => exact h
  | accepted => exact h
  | entered => exact h
  | listed => exact h
  | created => exact h

theorem sendInv_left {D : Bytes} {c : Nat} {s s' : Master.Sys} (h : SendInv D c s) (hp : s'.pcs c = .left) (hs : s'.stream c = s.stream c)
    (hd : s.engine.file.disk <+: s'.engine.file.disk) : SendInv D c s' := by
  unfold SendInv at *
  rw [hp, hs]
  generalize s.pcs c = p at *
  cases p with
  | flushed => exact ⟨D, List.prefix_rfl, h.1.trans hd, h.2 ▸ List.nil_prefix⟩
  | opened => exact ⟨D, List.prefix_rfl, h.1.trans hd, h.2 ▸ List.nil_prefix⟩
  | copied b => exact ⟨b, h.1, h.2.1.trans hd, h.2.2 ▸ List.nil_prefix⟩
  | sending b n => exact ⟨b, h.1, h.2.1.trans hd, h.2.2 ▸ List.take_prefix _ _⟩
  | left => obtain ⟨b, h1, h2, h3⟩ := h; exact ⟨b, h1, h2.trans hd, h3⟩
  | _ => exact ⟨[], h.1 ▸ List.prefix_rfl, List.nil_prefix, h.2 ▸ List.nil_prefix⟩

theorem sendInv_step {ω : Nat → Nat} {R : Engine → Engine → Prop} (hR : ∀ {e e' : Engine}, R e e' → e.file.disk <+: e'.file.disk) {D : Bytes} {c : Nat}
    {s s' : Master.Sys} {l : Master.Ev} (h : SendInv D c s) (hf : s.file = true) (hs : Master.Step R ω s l s') : SendInv D c s' := by
  have other : ∀ {d : Nat} {p : Master.Pc}, d ≠ c → upd s.pcs d p c = s.pcs c := fun hd => by simp [upd, hd.symm]
  have otherS : ∀ {d : Nat} {b : Bytes}, d ≠ c → upd s.stream d b c = s.stream c := fun hd => by simp [upd, hd.symm]
  cases hs with
  | engine he =>
    exact sendInv_mono h rfl rfl (by simp only [Master.noLog, hf, if_true]; exact hR he)
  | acceptFails => exact sendInv_mono h rfl rfl List.prefix_rfl
  | broke d => exact sendInv_mono h rfl rfl List.prefix_rfl
  | accept d _ hp =>
    by_cases hd : d = c
    · subst hd; simp only [SendInv, hp] at h; simpa [SendInv, upd] using h
    · exact sendInv_mono h (other hd) rfl List.prefix_rfl
  | noFile d hp hff => rw [hf] at hff; cases hff
  | enter d hp _ =>
    by_cases hd : d = c
    · subst hd; simp only [SendInv, hp] at h; simpa [SendInv, upd] using h
    · exact sendInv_mono h (other hd) rfl List.prefix_rfl
  | list d hp =>
    by_cases hd : d = c
    · subst hd; simp only [SendInv, hp] at h; simpa [SendInv, upd] using h
    · exact sendInv_mono h (other hd) rfl List.prefix_rfl
  | create d hp =>
    by_cases hd : d = c
    · subst hd; simp only [SendInv, hp] at h; simpa [SendInv, upd] using h
    · exact sendInv_mono h (other hd) rfl List.prefix_rfl
  | flush d hp hff =>
    by_cases hd : d = c
    · subst hd; simp only [SendInv, hp] at h
      simp only [SendInv, upd, if_true]
      exact ⟨h.1 ▸ List.nil_prefix, h.2⟩
    · exact sendInv_mono h (other hd) rfl (flush_grows ω _)
  | flushFails d hp hff =>
    by_cases hd : d = c
    · subst hd; exact sendInv_left h (by simp [Master.leave, upd]) rfl (flush_grows ω _)
    · exact sendInv_mono h (by simpa [Master.leave] using other hd) rfl (flush_grows ω _)
  | openRaw d hp =>
    by_cases hd : d = c
    · subst hd; simp only [SendInv, hp] at h; simpa [SendInv, upd] using h
    · exact sendInv_mono h (other hd) rfl List.prefix_rfl
  | copy d hp =>
    by_cases hd : d = c
    · subst hd; simp only [SendInv, hp] at h
      simp only [SendInv, upd, if_true]
      exact ⟨h.1, List.prefix_rfl, h.2⟩
    · exact sendInv_mono h (other hd) rfl List.prefix_rfl
  | prepare d b hp =>
    by_cases hd : d = c
    · subst hd; simp only [SendInv, hp] at h
      simp only [SendInv, upd, if_true]
      exact ⟨h.1, h.2.1, by simpa using h.2.2⟩
    · exact sendInv_mono h (other hd) rfl List.prefix_rfl
  | send d b n k hp _ hn =>
    by_cases hd : d = c
    · subst hd; simp only [SendInv, hp] at h
      simp only [SendInv, upd, if_true]
      exact ⟨h.1, h.2.1, by rw [h.2.2, List.take_add]⟩
    · exact sendInv_mono h (other hd) (otherS hd) List.prefix_rfl
  | finish d b n hp hn =>
    by_cases hd : d = c
    · subst hd; exact sendInv_left h (by simp [Master.leave, upd]) rfl List.prefix_rfl
    · exact sendInv_mono h (by simpa [Master.leave] using other hd) rfl List.prefix_rfl
  | fail d hp =>
    by_cases hd : d = c
    · subst hd; exact sendInv_left h (by simp [Master.leave, upd]) rfl List.prefix_rfl
    · exact sendInv_mono h (by simpa [Master.leave] using other hd) rfl List.prefix_rfl

/-- What has been sent is the beginning of a transfer of what the log contains. -/
theorem sendInv_stream {D : Bytes} {c : Nat} {s : Master.Sys} (h : SendInv D c s) (hD : D <+: s.engine.file.disk) :
    ∃ b, D <+: b ∧ b <+: s.engine.file.disk ∧ s.stream c <+: transfer b := by
  unfold SendInv at h
  generalize s.pcs c = p at *
  cases p with
  | flushed => exact ⟨D, List.prefix_rfl, hD, h.2 ▸ List.nil_prefix⟩
  | opened => exact ⟨D, List.prefix_rfl, hD, h.2 ▸ List.nil_prefix⟩
  | copied b => exact ⟨b, h.1, h.2.1, h.2.2 ▸ List.nil_prefix⟩
  | sending b n => exact ⟨b, h.1, h.2.1, h.2.2 ▸ List.take_prefix _ _⟩
  | left => exact h
  | _ => exact ⟨D, List.prefix_rfl, hD, h.2 ▸ List.nil_prefix⟩

theorem sendInv_exec {ω : Nat → Nat} {R : Engine → Engine → Prop} (hR : ∀ {e e' : Engine}, R e e' → e.file.disk <+: e'.file.disk) {D : Bytes} {c : Nat}
    {s s' : Master.Sys} {tr : List Master.Ev} (h : SendInv D c s) (hf : s.file = true) (hx : Exec (Master.Step R ω) s tr s') : SendInv D c s' :=
  hx.inv (P := fun _ s' => SendInv D c s') h fun _ _ _ _ hx ih hs => sendInv_step hR ih ((mirror_file hx).trans hf) hs

theorem sendInv_new (e : Engine) (f : Bool) (c : Nat) : SendInv [] c (Master.new e f) := by simp [SendInv, Master.new]

/-- A replica decodes all of a transfer or nothing. -/
theorem receive_prefix {b got : Bytes} (hb : b.length < 2 ^ 32) (hg : got <+: transfer b) :
    receive got = ([], some .incomplete) ∨ got = transfer b := by
  obtain ⟨t, ht⟩ := hg
  rcases Nat.lt_or_ge got.length (transfer b).length with hlt | hge
  · have e : got = (transfer b).take got.length := by rw [← ht]; simp
    by_cases h0 : b = []
    · subst h0
      left
      rw [receive, readExact_none.2 (by simpa [transfer, le32] using hlt)]
    · left; rw [e]; exact (C36_cut b h0 hb _ hlt noDBs (fun _ => env0)).1
  · right
    have : t = [] := by
      have := congrArg List.length ht
      simp only [List.length_append] at this
      exact List.eq_nil_of_length_eq_zero (by omega)
    rw [← ht, this, List.append_nil]

theorem receive_whole {b : Bytes} (hb : b.length < 2 ^ 32) : (receive (transfer b)).1 = (parseLog b).1 := by
  by_cases h0 : b = []
  · subst h0; rfl
  · have := receive_transfer h0 hb []
    rw [List.append_nil] at this
    rw [this]
    generalize parseLog b = x
    obtain ⟨vs, e⟩ := x
    cases e <;> rfl

theorem serving_runs {ω : Nat → Nat} {h : List Req} {tr : List Master.Ev} {s : Master.Sys} (hr : Serving ω h tr s) :
    s.file = true ∧ RunsUnhurried ω h s.engine := ⟨mirror_file hr, mirror_runs unhurried_flush rfl hr⟩

theorem serving_prefix {ω : Nat → Nat} {h : List Req} {e : Engine} (hr : RunsUnhurried ω h e) : e.file.disk <+: historyLog (h.take (received h e)) := by
  obtain ⟨L, h0, h1, h2, h3, h4, h5, h6, h7⟩ := unhurried_inv hr
  exact (List.prefix_append _ _).trans (h5.trans (h1 ▸ List.prefix_append _ _))

/-- The requests of which a beginning of the log tells everything. -/
theorem replay_prefix {h : List Req} {N : Nat} (hN : N ≤ h.length) {b : Bytes} (hb : b <+: historyLog (h.take N)) {st : State} {rs : List Resp}
    (ho : ∀ q ∈ h, q.Occurs ∧ ¬ q.Is b!"ltrim" ∧ ¬ q.Is b!"spop" ∧ ∀ o ∈ q.objs, TextObj o)
    (hs : serve State.empty (served h) = .ok (st, rs)) {envs : Nat → Env} (hf : ∀ i, (envs i).ord.Fair) :
    ∃ n dbs, n ≤ N ∧ buildFromLog noDBs envs (parseLog b).1 = .ok dbs ∧ HoldsAfter dbs h n ∧
      ∀ m, m ≤ N → (historyLog (h.take m)).length ≤ b.length → m ≤ n := by
  obtain ⟨n, hk⟩ := kept_exists (h.take N) b.length
  have hn : n ≤ N := by have := hk.1; simp at this; omega
  have htt : ∀ m, m ≤ N → (h.take N).take m = h.take m := fun m hm => by rw [List.take_take, Nat.min_eq_left hm]
  have hrecs := parse_history_cut (h := h.take N) (fun q hq => by
    have := ho q (List.mem_of_mem_take hq); exact ⟨this.1, this.2.2.2⟩) hk
  rw [← List.prefix_iff_eq_take.1 hb, htt n hn] at hrecs
  obtain ⟨s, rs', g1, g2⟩ := serve_take hs n
  have e1 : (served h).take n = served (h.take n) := by simp [served, List.map_take]
  rw [e1] at g1
  obtain ⟨dbs, a, k, b1, b2, b3, b4⟩ := replay_abs (h := h.take n) (fun q hq => by
    have := ho q (List.mem_of_mem_take hq); exact ⟨this.1, this.2.1, this.2.2.1⟩) abs_empty g1 (dbs := noDBs) abs_empty hf []
  rw [List.append_nil] at b1
  refine ⟨n, dbs, hn, hrecs ▸ b1, ⟨s, rs', a, g1, b2, b3, b4⟩, fun m hm hl => ?_⟩
  exact hk.2.2 m (by simp; omega) (by rw [htt m hm]; exact hl)

theorem holds_nothing (h : List Req) : HoldsAfter noDBs h 0 :=
  ⟨State.empty, [], _, rfl, abs_empty, abs_empty, fun _ _ => rfl⟩

theorem sync_fresh {envs envs' : Nat → Env} {got : Bytes} : syncExternal envs envs' (some []) (some got) = fromMaster noDBs envs' got := rfl

/-- C63: whatever has arrived of what the master sends – all of it or, when something failed at either end or in between, a part – a replica started
with an empty database file ends up with exactly what the master held after some number of its requests, never with anything else. The full
claim, without the hypotheses about the requests and the order of the writers, is false for the reasons given with C33 and C34. -/
theorem C63_prefix_partial {ω : Nat → Nat} {h : List Req} {tr : List Master.Ev} {s : Master.Sys} {c : Nat} {got : Bytes} {st : State}
    {rs : List Resp} (hr : Serving ω h tr s) (hg : got <+: s.stream c)
    (ho : ∀ q ∈ h, q.Occurs ∧ ¬ q.Is b!"ltrim" ∧ ¬ q.Is b!"spop" ∧ ∀ o ∈ q.objs, TextObj o)
    (hs : serve State.empty (served h) = .ok (st, rs)) (hd : s.engine.file.disk.length < 2 ^ 32) {envs envs' : Nat → Env}
    (hf : ∀ i, (envs' i).ord.Fair) :
    ∃ n dbs, n ≤ received h s.engine ∧ syncExternal envs envs' (some []) (some got) = .ok dbs ∧ HoldsAfter dbs h n := by
  obtain ⟨hfile, hru⟩ := serving_runs hr
  obtain ⟨b, -, h2, h3⟩ := sendInv_stream (sendInv_exec unhurried_grows (sendInv_new _ _ c) rfl hr) List.nil_prefix
  have hbl : b.length < 2 ^ 32 := Nat.lt_of_le_of_lt h2.length_le hd
  rw [sync_fresh]
  rcases receive_prefix hbl (hg.trans h3) with hi | rfl
  · exact ⟨0, noDBs, Nat.zero_le _, by rw [fromMaster, hi], holds_nothing h⟩
  · obtain ⟨n, dbs, g1, g2, g3, -⟩ := replay_prefix (Nat.sub_le _ _) (h2.trans (serving_prefix hru)) ho hs hf
    rw [← receive_whole hbl] at g2
    unfold fromMaster
    generalize receive (transfer b) = x at *
    obtain ⟨vs, err⟩ := x
    cases err with
    | none => exact ⟨n, dbs, g1, g2, g3⟩
    | some e => exact ⟨0, noDBs, Nat.zero_le _, rfl, holds_nothing h⟩

theorem pending_last_on {ω : Nat → Nat} {d : Bytes} {st : State} {h : List Req} {e : Engine}
    (hr : Relation.ReflTransGen (Unhurried ω) (Engine.startOn d st h) e) :
    ∀ q ∈ e.pending, 0 < received h e ∧ h[received h e - 1]? = some q := by
  induction hr with
  | refl => simp [Engine.startOn, Engine.start]
  | @tail e e' hx hs ih =>
    obtain ⟨L, h0, -, h2, -, h4, -⟩ := unhurried_inv_on hx
    obtain ⟨hs, hu⟩ := hs
    cases hs with
    | @receive q rest ht hc =>
      have hp : e.pending = [] := by
        rcases hu with hu | hu
        · have := congrArg List.length hu
          simp [ht] at this
        · exact hu
      have hl : e.todo.length = rest.length + 1 := by rw [ht]; rfl
      have hlt : received h e < h.length := by simp only [received]; omega
      have hn : h.length - rest.length = received h e + 1 := by simp only [received]; omega
      rw [List.drop_eq_getElem_cons hlt, ht] at h4
      intro x hx
      have hxq : x = q := by
        simp only [hp] at hx
        split at hx <;> simp_all
      subst hxq
      have hr' : received h { e with todo := rest, current := some x, pending := if isLogged x.objs then e.pending ++ [x] else e.pending } =
          received h e + 1 := hn
      rw [hr']
      refine ⟨by omega, ?_⟩
      rw [show received h e + 1 - 1 = received h e by omega, List.getElem?_eq_getElem hlt, (List.cons.inj h4).1]
    | execute hc hh => exact ih
    | @write before after q hp =>
      intro x hx
      exact ih x (by rw [hp]; simp only [List.mem_append, List.mem_cons] at hx ⊢; tauto)
    | flush => exact ih

theorem unhurried_runs {ω : Nat → Nat} {h : List Req} {e : Engine} (hr : RunsUnhurried ω h e) : Runs ω [] h e :=
  Relation.ReflTransGen.mono (r := Unhurried ω) (p := Engine.Step ω) (fun _ _ h => h.1) _ _ hr

theorem serve_length {st st' : State} {qs : List (Env × List Resp)} {rs : List Resp} (h : serve st qs = .ok (st', rs)) : rs.length = qs.length := by
  induction qs generalizing st rs with
  | nil => cases h; rfl
  | cons q qs ih =>
    obtain ⟨env, objs⟩ := q
    simp only [serve] at h
    split at h <;> try cases h
    split at h <;> try cases h
    rename_i hs
    simp [ih hs]

theorem replies_received {ω : Nat → Nat} {h : List Req} {e : Engine} (hr : RunsUnhurried ω h e) : e.replies.length ≤ received h e := by
  obtain ⟨done, written, h1, h2, -⟩ := runInv (unhurried_runs hr)
  have h3 := (serve_length h2)
  have := congrArg List.length h1
  simp only [List.length_append, served, List.length_map, received] at *
  omega

/-- When nothing has failed, everything but the record still waiting is in the file or its buffer. -/
theorem written_length_on {ω : Nat → Nat} {d : Bytes} {st : State} {h : List Req} {e : Engine}
    (hr : Relation.ReflTransGen (Unhurried ω) (Engine.startOn d st h) e) (hf : e.file.failed = false) (hb : e.file.buf = []) :
    e.file.disk = d ++ historyLog (h.take (received h e - e.pending.length)) := by
  obtain ⟨L, h0, h1, h2, h3, h4, h5, h6, h7⟩ := unhurried_inv_on hr
  have hL := h6 hf
  rw [hb, List.append_nil] at hL
  rw [hL]
  match hp : e.pending with
  | [] => rw [hp] at h1; simpa [historyLog] using h1
  | [q] =>
    rw [hp] at h1
    obtain ⟨g1, g2⟩ := pending_last_on hr q (by rw [hp]; simp)
    have hlt : received h e - 1 < h.length := by simp only [received] at *; omega
    rw [List.getElem?_eq_getElem hlt, Option.some.injEq] at g2
    rw [show h.take (received h e) = h.take (received h e - 1) ++ [q] by
      rw [← g2, ← List.take_succ_eq_append_getElem hlt, show received h e - 1 + 1 = received h e by omega], historyLog_append, ← List.append_assoc] at h1
    exact List.append_cancel_right h1
  | _ :: _ :: _ => rw [hp] at h2; simp at h2

theorem written_length {ω : Nat → Nat} {h : List Req} {e : Engine} (hr : RunsUnhurried ω h e) (hf : e.file.failed = false) (hb : e.file.buf = []) :
    e.file.disk = historyLog (h.take (received h e - e.pending.length)) := written_length_on (d := []) (st := State.empty) hr hf hb

/-- C63: a replica that reports no error has everything the master had answered before it wrote its log out for this replica, apart from at most the
very last request. -/
theorem C63_fresh_partial {ω : Nat → Nat} {h : List Req} {tr tr' : List Master.Ev} {s0 s s' : Master.Sys} {c : Nat} {got : Bytes} {st : State}
    {rs : List Resp} (hr : Serving ω h tr s0) (hfl : Master.Step (Unhurried ω) ω s0 (.flushed c) s)
    (hx : Exec (Master.Step (Unhurried ω) ω) s tr' s') (hg : got <+: s'.stream c) (hok : (receive got).2 = none)
    (ho : ∀ q ∈ h, q.Occurs ∧ ¬ q.Is b!"ltrim" ∧ ¬ q.Is b!"spop" ∧ ∀ o ∈ q.objs, TextObj o)
    (hs : serve State.empty (served h) = .ok (st, rs)) (hd : s'.engine.file.disk.length < 2 ^ 32) {envs envs' : Nat → Env}
    (hf : ∀ i, (envs' i).ord.Fair) :
    ∃ n dbs, s.engine.replies.length ≤ n + s.engine.pending.length ∧ s.engine.pending.length ≤ 1 ∧ n ≤ received h s'.engine ∧
      syncExternal envs envs' (some []) (some got) = .ok dbs ∧ HoldsAfter dbs h n := by
  have hr1 : Serving ω h (tr ++ [.flushed c]) s := .snoc hr hfl
  have hr2 : Serving ω h _ s' := hr1.append hx
  obtain ⟨f1, u1⟩ := serving_runs hr1
  obtain ⟨f2, u2⟩ := serving_runs hr2
  have u12 := mirror_runs unhurried_flush f1 hx
  have hinv0 := sendInv_exec unhurried_grows (sendInv_new _ _ c) rfl hr
  have hstart : SendInv s.engine.file.disk c s ∧ s.engine.file.failed = false ∧ s.engine.file.buf = [] := by
    cases hfl with
    | flush _ hp hff =>
      simp only [SendInv, hp] at hinv0
      refine ⟨?_, hff, flush_done ω _ hff⟩
      simp only [SendInv, upd, if_true]
      exact ⟨List.prefix_rfl, hinv0.2⟩
  obtain ⟨hstart, hfail, hbuf⟩ := hstart
  obtain ⟨b, hDb, h2, h3⟩ := sendInv_stream (sendInv_exec unhurried_grows hstart f1 hx) (runs_grows u12)
  have hbl : b.length < 2 ^ 32 := Nat.lt_of_le_of_lt h2.length_le hd
  rw [sync_fresh]
  rcases receive_prefix hbl (hg.trans h3) with hi | rfl
  · rw [hi] at hok; cases hok
  · obtain ⟨n, dbs, g1, g2, g3, g4⟩ := replay_prefix (Nat.sub_le _ _) (h2.trans (serving_prefix u2)) ho hs hf
    obtain ⟨-, t0, -, hp1, -⟩ := unhurried_inv u1
    have hrec : received h s.engine ≤ received h s'.engine := by
      have hmono : s'.engine.todo.length ≤ s.engine.todo.length := by
        clear hfl hinv0 hstart hfail hbuf hDb h2 h3 hbl g1 g2 g3 g4 hp1 hok hg u2 hd hr2 hx
        generalize s'.engine = e' at u12
        induction u12 with
        | refl => exact Nat.le_refl _
        | tail _ hs ih =>
          obtain ⟨hs, -⟩ := hs
          cases hs with
          | receive ht hc => rw [ht] at ih; simp at ih ⊢; omega
          | execute => exact ih
          | write => exact ih
          | flush => exact ih
      simp only [received]; omega
    have hle := g4 (received h s.engine - s.engine.pending.length) (by change _ ≤ received h s'.engine; omega) (by
      rw [← written_length u1 hfail hbuf]; exact hDb.length_le)
    have hrep := replies_received u1
    rw [← receive_whole hbl] at g2
    refine ⟨n, dbs, by omega, hp1, g1, ?_, g3⟩
    unfold fromMaster
    generalize receive (transfer b) = x at *
    obtain ⟨vs, err⟩ := x
    cases err with
    | none => exact g2
    | some e => cases hok

theorem left_stays {ω : Nat → Nat} {R : Engine → Engine → Prop} {s s' : Master.Sys} {tr : List Master.Ev} {c : Nat} (hp : s.pcs c = .left)
    (hx : Exec (Master.Step R ω) s tr s') : s'.pcs c = .left ∧ s'.stream c = s.stream c := by
  refine hx.inv (P := fun _ s' => s'.pcs c = .left ∧ s'.stream c = s.stream c) ⟨hp, rfl⟩ fun tr s1 l s2 _ ih hs => ?_
  cases hs <;> simp only [Master.leave, upd] <;> grind [Master.canFail]

/-- A transfer that was finished brought all of what had been copied. -/
theorem finished_stream {ω : Nat → Nat} {D : Bytes} {c : Nat} {s s' : Master.Sys} {tr : List Master.Ev} (h : SendInv D c s) (hf : s.file = true)
    (hx : Exec (Master.Step (Unhurried ω) ω) s tr s') (hm : .finished c ∈ tr) :
    ∃ b, D <+: b ∧ b <+: s'.engine.file.disk ∧ s'.stream c = transfer b := by
  obtain ⟨t1, t2, rfl⟩ := List.append_of_mem hm
  rw [show t1 ++ Master.Ev.finished c :: t2 = (t1 ++ [.finished c]) ++ t2 by simp] at hx
  obtain ⟨s2, h2, h3⟩ := hx.split
  have f2 := (mirror_file h2).trans hf
  obtain ⟨s1, h1, hst⟩ := h2.split_snoc
  have hinv := sendInv_exec unhurried_grows h hf h1
  cases hst with
  | finish _ b n hp hn =>
    simp only [SendInv, hp] at hinv
    obtain ⟨-, g⟩ := left_stays (c := c) (by simp [Master.leave, upd]) h3
    refine ⟨b, hinv.1, hinv.2.1.trans ?_, ?_⟩
    · have := runs_grows (mirror_runs unhurried_flush f2 h3)
      exact this
    · rw [g]
      show s1.stream c = _
      rw [hinv.2.2, hn, List.take_length]

/-- A finished transfer went through the flush. -/
theorem finished_flushed {ω : Nat → Nat} {R : Engine → Engine → Prop} {s s' : Master.Sys} {tr : List Master.Ev} {c : Nat} (he : Early s c)
    (hx : Exec (Master.Step R ω) s tr s') (hm : .finished c ∈ tr) :
    ∃ t1 s1 s2 t2, Exec (Master.Step R ω) s t1 s1 ∧ Master.Step R ω s1 (.flushed c) s2 ∧ Exec (Master.Step R ω) s2 t2 s' ∧ .finished c ∈ t2 := by
  have key := hx.inv (P := fun tr s' => (.finished c ∉ tr ∧ (Early s' c ∨ s'.pcs c = .left)) ∨
      ∃ t1 s1 s2 t2, Exec (Master.Step R ω) s t1 s1 ∧ Master.Step R ω s1 (.flushed c) s2 ∧ Exec (Master.Step R ω) s2 t2 s' ∧
        (.finished c ∈ tr → .finished c ∈ t2)) (.inl ⟨by simp, .inl he⟩) ?_
  · rcases key with ⟨h1, -⟩ | ⟨t1, s1, s2, t2, h1, h2, h3, h4⟩
    · exact absurd hm h1
    · exact ⟨t1, s1, s2, t2, h1, h2, h3, h4 hm⟩
  · intro tr s1 l s2 hx1 ih hs
    rcases ih with ⟨h1, h2⟩ | ⟨t1, s3, s4, t2, h1, h2, h3, h4⟩
    · by_cases hl : l = .flushed c
      · subst hl
        exact .inr ⟨tr, s1, s2, [], hx1, hs, .nil, by simp [h1]⟩
      · left
        have : l ≠ .finished c ∧ (Early s2 c ∨ s2.pcs c = .left) := by
          unfold Early at *
          cases hs <;> simp only [Master.leave, upd] <;> grind
        exact ⟨by simp [h1, Ne.symm this.1], this.2⟩
    · refine .inr ⟨t1, s3, s4, t2 ++ [l], h1, h2, .snoc h3 hs, fun hm => ?_⟩
      simp only [List.mem_append, List.mem_singleton] at hm ⊢
      tauto

theorem idle_stays {ω : Nat → Nat} {e e' : Engine} (hi : Idle e) (h : Relation.ReflTransGen (Unhurried ω) e e') : Idle e' ∧ e'.db = e.db := by
  induction h with
  | refl => exact ⟨hi, rfl⟩
  | tail _ hs ih =>
    obtain ⟨⟨i1, i2, i3⟩, i4⟩ := ih
    obtain ⟨hs, -⟩ := hs
    cases hs with
    | receive ht => rw [i1] at ht; cases ht
    | execute hc => rw [i2] at hc; cases hc
    | write hp => rw [i3] at hp; simp at hp
    | flush => exact ⟨⟨i1, i2, i3⟩, i4⟩

/-- C63: a replica that is served completely by a master at rest holds exactly what the master holds. -/
theorem C63_idle_partial {ω : Nat → Nat} {h : List Req} {tr tr' : List Master.Ev} {s s' : Master.Sys} {c : Nat} (hr : Serving ω h tr s)
    (hi : Idle s.engine) (he : Early s c) (hx : Exec (Master.Step (Unhurried ω) ω) s tr' s') (hm : .finished c ∈ tr')
    (ho : ∀ q ∈ h, q.Occurs ∧ ¬ q.Is b!"ltrim" ∧ ¬ q.Is b!"spop" ∧ ∀ o ∈ q.objs, TextObj o)
    (hd : (historyLog h).length < 2 ^ 32) {envs envs' : Nat → Env} (hf : ∀ i, (envs' i).ord.Fair) :
    ∃ dbs a, syncExternal envs envs' (some []) (some (s'.stream c)) = .ok dbs ∧ Abs s'.engine.db a ∧ Abs (dbs 1) a ∧
      ∀ i, i ≠ 1 → dbs i = State.empty := by
  obtain ⟨t1, s1, s2, t2, h1, h2, h3, h4⟩ := finished_flushed he hx hm
  have r1 : Serving ω h _ s1 := hr.append h1
  have r2 : Serving ω h _ s2 := .snoc r1 h2
  have r3 : Serving ω h _ s' := r2.append h3
  obtain ⟨f0, u0⟩ := serving_runs hr
  obtain ⟨f2, u2⟩ := serving_runs r2
  obtain ⟨f3, u3⟩ := serving_runs r3
  have i2 := idle_stays hi (mirror_runs unhurried_flush f0 (h1.snoc h2))
  have i3 := idle_stays i2.1 (mirror_runs unhurried_flush f2 h3)
  have hrec : ∀ e : Engine, Idle e → received h e = h.length := fun e hi => by simp [received, hi.1]
  have hw : s2.engine.file.disk = historyLog h ∧ SendInv s2.engine.file.disk c s2 := by
    have hinv0 := sendInv_exec unhurried_grows (sendInv_new _ _ c) rfl r1
    cases h2 with
    | flush _ hp hff =>
      simp only [SendInv, hp] at hinv0
      refine ⟨?_, ?_⟩
      · have := written_length u2 hff (flush_done ω _ hff)
        rw [this, hrec _ i2.1, i2.1.2.2]
        simp
      · simp only [SendInv, upd, if_true]
        exact ⟨List.prefix_rfl, hinv0.2⟩
  obtain ⟨hw, hinv⟩ := hw
  obtain ⟨b, b1, b2, b3⟩ := finished_stream hinv f2 h3 h4
  have hb : b = historyLog h := by
    have p3 := serving_prefix u3
    rw [hrec _ i3.1, List.take_length] at p3
    rw [hw] at b1
    exact (b2.trans p3).eq_of_length (Nat.le_antisymm (b2.trans p3).length_le b1.length_le)
  subst hb
  obtain ⟨done, written, g1, g2, -⟩ := runInv (unhurried_runs u3)
  rw [i3.1.1, i3.1.2.1] at g1
  simp only [Option.toList_none, List.append_nil] at g1
  subst g1
  obtain ⟨bs, hp, hbs⟩ := historyLog_packed (h := h) fun q hq => ⟨(ho q hq).1, (ho q hq).2.2.2⟩
  obtain ⟨dbs, a, k, c1, c2, c3, c4⟩ := replay_abs (h := h) (fun q hq => ⟨(ho q hq).1, (ho q hq).2.1, (ho q hq).2.2.1⟩) abs_empty g2
    (dbs := noDBs) abs_empty hf []
  rw [List.append_nil] at c1
  refine ⟨dbs, a, ?_, c2, c3, c4⟩
  rw [sync_fresh, b3, hbs, C36_replays hp (by rw [← hbs]; exact hd)]
  exact c1

/-! ### The hypotheses are met -/

def roomy : Nat → Nat := fun _ => 100000

/-- An engine between two requests, with no writer waiting. -/
def resting (todo : List Req) (db : State) (replies : List Resp) (p : PFile) : Engine :=
  { todo := todo, current := none, db := db, replies := replies, pending := [], file := p }

/-- The parts of the master that requests to the engine leave alone. -/
def Beside (s s' : Master.Sys) : Prop :=
  s'.file = s.file ∧ s'.accepting = s.accepting ∧ s'.pcs = s.pcs ∧ s'.stream = s.stream ∧ s'.closed = s.closed

/-- One request of modify type from beginning to end. -/
theorem serving_request {ω : Nat → Nat} {s : Master.Sys} {q : Req} {rest : List Req} {db db' : State} {rs : List Resp} {r : Resp} {p : PFile}
    (hf : s.file = true) (he : s.engine = resting (q :: rest) db rs p) (hl : isLogged q.objs = true)
    (hh : handle q.env db q.objs = .ok (db', r)) : ∃ tr s', Exec (Master.Step (Unhurried ω) ω) s tr s' ∧
      s'.engine = resting rest db' (rs ++ [r]) (writeRecord ω p q) ∧ Beside s s' ∧ ∀ d, .failed d ∉ tr := by
  obtain ⟨_, f, acc, pcs, stream, closed, conns, temps, raws⟩ := s
  simp only at he hf
  subst he hf
  have e1 := Exec.snoc (step := Master.Step (Unhurried ω) ω) 
    (.nil (s0 := ⟨resting (q :: rest) db rs p, true, acc, pcs, stream, closed, conns, temps, raws⟩)) (.engine ⟨.receive rfl rfl, .inr rfl⟩)
  have e2 := Exec.snoc e1 (.engine ⟨.execute rfl hh, .inl rfl⟩)
  have e3 := Exec.snoc e2 (.engine ⟨.write (before := []) (after := []) (q := q) (by simp [Master.noLog, hl, resting]), .inl rfl⟩)
  exact ⟨_, _, e3, rfl, ⟨rfl, rfl, rfl, rfl, rfl⟩, by simp⟩

/-- From the flush on nothing stands in the way of a transfer. -/
theorem serving_rest {ω : Nat → Nat} {R : Engine → Engine → Prop} {s : Master.Sys} {c : Nat} (hp : s.pcs c = .flushed) (hs : s.stream c = [])
    (hc : s.closed c = false) :
    ∃ tr s', Exec (Master.Step R ω) s tr s' ∧ .finished c ∈ tr ∧ (∀ d, .failed d ∉ tr) ∧ s'.stream c = transfer s.engine.file.disk ∧
      s'.engine = s.engine := by
  have e1 := Exec.snoc (step := Master.Step R ω) .nil (.openRaw c hp)
  have e2 := Exec.snoc e1 (.copy c (by simp [upd]))
  have e3 := Exec.snoc e2 (.prepare c s.engine.file.disk (by simp [upd]))
  have e4 := Exec.snoc e3 (.send c s.engine.file.disk 0 (transfer s.engine.file.disk).length (by simp [upd]) hc (by simp))
  have e5 := Exec.snoc e4 (.finish c s.engine.file.disk _ (by simp [upd]; rfl) (by simp))
  exact ⟨_, _, e5, by simp, by simp, by simp [Master.leave, upd, hs], rfl⟩

/-- A replica connects and the log is written out for it. -/
theorem serving_flush {ω : Nat → Nat} {R : Engine → Engine → Prop} {s : Master.Sys} {c : Nat} (ha : s.accepting = true) (hp : s.pcs c = .absent)
    (hf : s.file = true) (hfl : (s.engine.file.flush ω).failed = false) :
    ∃ tr s', Exec (Master.Step R ω) s tr s' ∧ s'.engine = { s.engine with file := s.engine.file.flush ω } ∧ s'.stream = s.stream ∧
      s'.closed = s.closed ∧ s'.pcs c = .flushed ∧ s'.file = true ∧ ∀ d, .failed d ∉ tr := by
  have e1 := Exec.snoc (step := Master.Step R ω) .nil (.accept c ha hp)
  have e2 := Exec.snoc e1 (.enter c (by simp [upd]) hf)
  have e3 := Exec.snoc e2 (.list c (by simp [upd]))
  have e4 := Exec.snoc e3 (.create c (by simp [upd]))
  have e5 := Exec.snoc e4 (.flush c (by simp [upd]) hfl)
  exact ⟨_, _, e5, rfl, rfl, rfl, by simp [upd], hf, by simp⟩

theorem sample_file : (writeRecord roomy (writeRecord roomy (PFile.new []) set1) set2).flush roomy =
    { disk := historyLog [set1, set2], buf := [], failed := false, calls := 1 } := by
  rfl

/-- A master that has served SET k 1 and SET k 2 serves a replica: the hypotheses of the theorems above can be met, and the replica gets both. -/
example : ∃ tr tr' s s', Serving roomy [set1, set2] tr s ∧ Idle s.engine ∧ Early s 0 ∧ Exec (Master.Step (Unhurried roomy) roomy) s tr' s' ∧
    .finished 0 ∈ tr' ∧ s'.engine.replies = [.simple b!"OK", .simple b!"OK"] ∧ s'.stream 0 = transfer (historyLog [set1, set2]) ∧
    (receive (s'.stream 0)).2 = none ∧ (historyLog [set1, set2]).length < 2 ^ 32 := by
  obtain ⟨t1, s1, x1, e1, ⟨f1, f2, f3, f4, f5⟩, -⟩ := serving_request (ω := roomy) (s := Master.new (Engine.start [] [set1, set2]) true) rfl rfl rfl rfl
  obtain ⟨t2, s2, x2, e2, ⟨g1, g2, g3, g4, g5⟩, -⟩ := serving_request (ω := roomy) (s := s1) f1 e1 rfl rfl
  have hfile : s2.engine.file.flush roomy = { disk := historyLog [set1, set2], buf := [], failed := false, calls := 1 } := by
    rw [e2]; exact sample_file
  obtain ⟨t3, s3, x3, a1, a2, a3, a4, -⟩ := serving_flush (R := Unhurried roomy) (ω := roomy) (c := 0) (s := s2) (g2.trans f2)
    (by rw [g3, f3]; rfl) (g1.trans f1) (by rw [hfile])
  obtain ⟨t4, s4, x4, b1, b2, b3, b4⟩ := serving_rest (R := Unhurried roomy) (ω := roomy) a4 (by rw [a2, g4, f4]; rfl) (by rw [a3, g5, f5]; rfl)
  have b3 : s4.stream 0 = transfer (historyLog [set1, set2]) := by rw [b3, a1, hfile]
  refine ⟨_, _, s2, s4, x1.append x2, by rw [e2]; exact ⟨rfl, rfl, rfl⟩, .inl (by rw [g3, f3]; rfl), x3.append x4, by simp [b1],
    by rw [b4, a1, e2]; rfl, b3, ?_, ?_⟩
  · rw [b3]; decide +kernel
  · decide +kernel

/-! ### What is not so -/

def big : Req := sent [b!"set", b!"j", List.replicate 2020 120]

set_option maxRecDepth 100000 in
theorem big_ok : big.Occurs ∧ ¬ big.Is b!"ltrim" ∧ ¬ big.Is b!"spop" ∧ ∀ o ∈ big.objs, TextObj o :=
  ⟨sent_occurs (by decide) (by decide +kernel) (by decide +kernel), sent_is (by decide), sent_is (by decide), sent_text⟩

/-- The file while a replica is served. -/
def tornFile : PFile := writeRecord roomy (writeRecord roomy ((writeRecord roomy (PFile.new []) set1).flush roomy) set2) big

set_option maxRecDepth 100000 in
/-- C63: a replica may take nothing although the master sent everything without any error. Here it has executed SET k 1 before the replica connected;
while the replica is served, SET k 2 and a SET of 2020 bytes arrive, whose records do not fit into the buffer together, and the file is copied when
it ends in the middle of the second. The replica does not ask again. -/
theorem C63_lost : ∃ (h : List Req) (ω : Nat → Nat) (tr tr' : List Master.Ev) (s s' : Master.Sys) (c : Nat),
    (∀ q ∈ h, q.Occurs ∧ ¬ q.Is b!"ltrim" ∧ ¬ q.Is b!"spop" ∧ ∀ o ∈ q.objs, TextObj o) ∧
    Serving ω h tr s ∧ s.engine.replies = [.simple b!"OK"] ∧ s.pcs c = .absent ∧ Exec (Master.Step (Unhurried ω) ω) s tr' s' ∧
    .finished c ∈ tr' ∧ (∀ d, .failed d ∉ tr') ∧ s'.engine.file.failed = false ∧
    ∀ envs envs', syncExternal envs envs' (some []) (some (s'.stream c)) = .ok noDBs := by
  obtain ⟨t1, s1, x1, e1, ⟨f1, f2, f3, f4, f5⟩, -⟩ := serving_request (ω := roomy) (s := Master.new (Engine.start [] [set1, set2, big]) true)
    rfl rfl rfl rfl
  obtain ⟨t2, s2, x2, a1, a2, a3, a4, a5, n2⟩ := serving_flush (R := Unhurried roomy) (ω := roomy) (c := 0) (s := s1) f2 (by rw [f3]; rfl) f1
    (by rw [e1]; decide +kernel)
  rw [e1] at a1
  obtain ⟨t3, s3, x3, e3, ⟨g1, g2, g3, g4, g5⟩, n3⟩ := serving_request (ω := roomy) (s := s2) a5 a1 rfl rfl
  obtain ⟨t4, s4, x4, e4, ⟨k1, k2, k3, k4, k5⟩, n4⟩ := serving_request (ω := roomy) (s := s3) (g1.trans a5) e3 rfl rfl
  obtain ⟨t5, s5, x5, b1, b2, b3, b4⟩ := serving_rest (R := Unhurried roomy) (ω := roomy) (s := s4) (c := 0) (by rw [k3, g3, a4])
    (by rw [k4, g4, a2, f4]; rfl) (by rw [k5, g5, a3, f5]; rfl)
  have hfile : s4.engine.file = tornFile := by rw [e4]; rfl
  refine ⟨[set1, set2, big], roomy, _, _, s1, s5, 0, ?_, x1, by rw [e1]; rfl, by rw [f3]; rfl, ((x2.append x3).append x4).append x5, by simp [b1], ?_,
    ?_, fun envs envs' => ?_⟩
  · simp only [List.forall_mem_cons, List.not_mem_nil, false_imp_iff, implies_true, and_true]
    exact ⟨set1_ok, set2_ok, big_ok⟩
  · intro d
    simp [n2, n3, n4, b2]
  · rw [b4, hfile]; decide +kernel
  · rw [sync_fresh, b3, hfile, fromMaster]
    have : (receive (transfer tornFile.disk)).2 = some .parse := by decide +kernel
    generalize receive (transfer tornFile.disk) = x at this
    obtain ⟨vs, e⟩ := x
    cases this
    rfl

/-- C63: a replica with a database file of its own holds what its own requests and then the master's requests lead to. -/
theorem C63_own_partial {g h : List Req} {s1 s2 : State} {rs rs' : List Resp}
    (ho : ∀ q ∈ g ++ h, q.Occurs ∧ ¬ q.Is b!"ltrim" ∧ ¬ q.Is b!"spop" ∧ ∀ o ∈ q.objs, TextObj o)
    (h1 : serve State.empty (served g) = .ok (s1, rs)) (h2 : serve s1 (served h) = .ok (s2, rs')) (hd : (historyLog h).length < 2 ^ 32)
    {envs envs' : Nat → Env} (hf : ∀ i, (envs i).ord.Fair) (hf' : ∀ i, (envs' i).ord.Fair) :
    ∃ dbs a, syncExternal envs envs' (some (historyLog g)) (some (transfer (historyLog h))) = .ok dbs ∧ Abs s2 a ∧ Abs (dbs 1) a ∧
      ∀ i, i ≠ 1 → dbs i = State.empty := by
  have og : ∀ q ∈ g, q.Occurs ∧ ¬ q.Is b!"ltrim" ∧ ¬ q.Is b!"spop" ∧ ∀ o ∈ q.objs, TextObj o := fun q hq => ho q (by simp [hq])
  have oh : ∀ q ∈ h, q.Occurs ∧ ¬ q.Is b!"ltrim" ∧ ¬ q.Is b!"spop" ∧ ∀ o ∈ q.objs, TextObj o := fun q hq => ho q (by simp [hq])
  obtain ⟨dbs, a, e1, e2, e3, e4⟩ := C33_rebuilds_partial g _ _ og h1 envs hf
  obtain ⟨bs, hp, hbs⟩ := historyLog_packed (h := h) fun q hq => ⟨(oh q hq).1, (oh q hq).2.2.2⟩
  obtain ⟨dbs', a', k, c1, c2, c3, c4⟩ := replay_abs (h := h) (fun q hq => ⟨(oh q hq).1, (oh q hq).2.1, (oh q hq).2.2.1⟩) e2 h2
    (dbs := dbs) e3 hf' []
  rw [List.append_nil] at c1
  refine ⟨dbs', a', ?_, c2, c3, fun i hi => (c4 i hi).trans (e4 i hi)⟩
  have e1 : fromFile (fun _ => State.empty) envs (historyLog g) = .ok dbs := e1
  simp only [syncExternal, e1, Outcome.bind_ok]
  rw [hbs, C36_replays hp (by rw [← hbs]; exact hd)]
  exact c1

/-- The full claim: a replica holds what its master holds. -/
def Mirrors : Prop := ∀ (g h : List Req) (st : State) (rs : List Resp), (∀ q ∈ g ++ h, q.Occurs) → serve State.empty (served h) = .ok (st, rs) →
    (historyLog h).length < 2 ^ 32 → ∀ envs envs' : Nat → Env, (∀ i, (envs i).ord.Fair) → (∀ i, (envs' i).ord.Fair) →
    ∃ dbs a, syncExternal envs envs' (some (historyLog g)) (some (transfer (historyLog h))) = .ok dbs ∧ Abs st a ∧ Abs (dbs 1) a

def push : Req := sent [b!"rpush", b!"l", b!"a"]

theorem push_ok : push.Occurs ∧ ¬ push.Is b!"ltrim" ∧ ¬ push.Is b!"spop" ∧ ∀ o ∈ push.objs, TextObj o :=
  ⟨sent_occurs, sent_is (by decide), sent_is (by decide), sent_text⟩

/-- C63 is false: a replica started on a copy of the master's database file has every element of the master's lists twice. -/
theorem C63_false : ¬ Mirrors := by
  intro H
  have hs : serve State.empty (served [push]) = .ok (_, [.int 1]) := rfl
  obtain ⟨dbs, a, h1, h2, h3⟩ := H [push] [push] _ _ (by
    simp only [List.cons_append, List.nil_append, List.forall_mem_cons, List.not_mem_nil, false_imp_iff, implies_true, and_true]
    exact ⟨push_ok.1, push_ok.1⟩) hs (by decide +kernel) (fun _ => env0) (fun _ => env0) (fun _ => env0_fair) (fun _ => env0_fair)
  obtain ⟨dbs', a', g1, g2, g3, -⟩ := C63_own_partial (g := [push]) (h := [push]) (by
    simp only [List.cons_append, List.nil_append, List.forall_mem_cons, List.not_mem_nil, false_imp_iff, implies_true, and_true]
    exact ⟨push_ok, push_ok⟩) hs (rs' := [.int 2]) rfl (by decide +kernel) (envs := fun _ => env0) (envs' := fun _ => env0) (fun _ => env0_fair) (fun _ => env0_fair)
  rw [h1] at g1; cases g1
  cases abs_unique h3 g3
  have := differ h2 g2 [b!"l"] b!"llen" (by decide) (r := .int 1) (s := .int 2) rfl rfl
  exact not_same_int (by decide) this

/-- C63: what a replica's own clients did to the master's keys is undone by the next start, although the replica answered OK and has it in its log.
Here the replica had taken over SET k 1 and then executed SET k 2: it held 2, and holds 1 after being started again. -/
theorem C63_reverts : ∃ (g h : List Req) (st : State), (∀ q ∈ g ++ h, q.Occurs) ∧
    serve State.empty (served (h ++ g)) = .ok (st, [.simple b!"OK", .simple b!"OK"]) ∧
    (∃ t, handle env0 st (req [b!"get", b!"k"]) = .ok (t, .bulk b!"2")) ∧
    ∀ envs envs' : Nat → Env, (∀ i, (envs i).ord.Fair) → (∀ i, (envs' i).ord.Fair) →
      ∃ dbs t, syncExternal envs envs' (some (historyLog g)) (some (transfer (historyLog h))) = .ok dbs ∧
        handle env0 (dbs 1) (req [b!"get", b!"k"]) = .ok (t, .bulk b!"1") := by
  refine ⟨[set2], [set1], _, ?_, rfl, ⟨_, rfl⟩, fun envs envs' hf hf' => ?_⟩
  · simp only [List.cons_append, List.nil_append, List.forall_mem_cons, List.not_mem_nil, false_imp_iff, implies_true, and_true]
    exact ⟨set2_ok.1, set1_ok.1⟩
  · obtain ⟨dbs, a, g1, g2, g3, -⟩ := C63_own_partial (g := [set2]) (h := [set1]) (by
      simp only [List.cons_append, List.nil_append, List.forall_mem_cons, List.not_mem_nil, false_imp_iff, implies_true, and_true]
      exact ⟨set2_ok, set1_ok⟩) rfl rfl (by decide +kernel) hf hf'
    obtain ⟨out, hst, hob⟩ := handle_refines g3 env0_fair (c := .get b!"k") (request_req (n := b!"get") [b!"k"])
    simp only [Step] at hst
    subst hst
    obtain ⟨t, ht, -⟩ := hob
    refine ⟨dbs, t, g1, ?_⟩
    have := differ g2 g3 [b!"k"] b!"get" (by decide) (r := .bulk b!"1") rfl ht
    rcases this with hr | ⟨⟨_, e⟩, _⟩
    · rw [hr]; exact ht
    · cases e

/-- C63: a master that has no database file logs nothing and sends nothing, and unless the connection breaks, the replica's start does not get past waiting for it. -/
theorem C63_no_file {ω : Nat → Nat} {R : Engine → Engine → Prop} {e : Engine} {tr : List Master.Ev} {s : Master.Sys} {c : Nat}
    (hx : Exec (Master.Step R ω) (Master.new e false) tr s) :
    s.engine.file = e.file ∧ s.stream c = [] ∧ (receiveReturns (s.stream c) (s.closed c) = true ↔ .broke c ∈ tr) := by
  have key := hx.inv (P := fun tr s => (s.file = false ∧ s.engine.file = e.file) ∧ (∀ d, s.pcs d = .absent ∨ s.pcs d = .accepted ∨ s.pcs d = .left) ∧ s.stream c = [] ∧
    (s.closed c = true ↔ .broke c ∈ tr)) (by simp [Master.new]) ?_
  · obtain ⟨⟨-, h0⟩, -, h1, h2⟩ := key
    refine ⟨h0, h1, ?_⟩
    rw [← h2, h1]
    simp [receiveReturns, show receive [] = ([], some .incomplete) from rfl]
  · rintro tr s l s' - ⟨h1, h2, h3, h4⟩ hs
    cases hs <;> simp only [Master.leave, upd, List.mem_append, List.mem_singleton] <;> grind [Master.canFail, Master.noLog]

/-- A replica that has connected to such a master. -/
example : ∃ tr s, Exec (Master.Step (Engine.Step roomy) roomy) (Master.new (Engine.start [] []) false) tr s ∧ s.pcs 0 = .left ∧ .broke 0 ∉ tr :=
  ⟨_, _, .snoc (.snoc .nil (.accept 0 rfl rfl)) (.noFile 0 (by simp [upd]) rfl), by simp [upd], by simp⟩

end Verif.Props
