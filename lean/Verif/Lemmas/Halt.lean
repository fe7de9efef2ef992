import Verif.Lemmas.Serve

/-! A process that is being stopped. -/

namespace Verif

open Spec
open Fut (upd)

variable {m : Bool} {ω : Nat → Nat} {d : Bytes} {st : State}

/-- A topic that is gone stays gone. -/
theorem topics_gone {cfg : Stop.Config} {s s' : Stop.Sys} {x : Stop.Ev} (hs : Stop.Step cfg ω s x s') :
    (s.requestTopic = false → s'.requestTopic = false) ∧ (s.responseTopic = false → s'.responseTopic = false) := by
  obtain ⟨-, -, hs⟩ := hs
  cases hs <;> simp_all

theorem topics_kept {s s' : Proc.Sys} {e : Proc.Ev} (hs : Proc.Step m ω s e s') :
    (s.stop.requestTopic = false → s'.stop.requestTopic = false) ∧ (s.stop.responseTopic = false → s'.stop.responseTopic = false) := by
  cases hs with
  | full | engineLeft => exact ⟨id, id⟩
  | both _ _ _ _ _ _ _ _ _ _ h => exact topics_gone h
  | stop _ _ _ _ h | told _ _ _ _ _ h => exact topics_gone h

theorem hears_mono {s : Proc.Sys} {w : Option Whole.Ev} {n : Nat} (h : s.unheard n = true) : s.hears w n = true := by
  unfold Proc.Sys.hears
  split
  · split
    · exact h
    · simp only [upd]; split <;> simp_all
  · exact h

theorem says_mono {s : Proc.Sys} {w : Option Whole.Ev} {n : Nat} (h : s.unsaid n = true) : s.says w n = true := by
  unfold Proc.Sys.says
  split
  · split
    · exact h
    · simp only [upd]; split <;> simp_all
  · exact h

theorem marks_kept {s s' : Proc.Sys} {e : Proc.Ev} (hs : Proc.Step m ω s e s') (n : Nat) :
    (s.unheard n = true → s'.unheard n = true) ∧ (s.unsaid n = true → s'.unsaid n = true) := by
  cases hs with
  | full => exact ⟨hears_mono, says_mono⟩
  | _ => exact ⟨id, id⟩

theorem seen_read_within {c n : Nat} {o : Resp} {x : Full.Ev} (h : .read c n o ∈ seenIn [x]) : Proc.within x = some (.net (.read c n o)) := by
  cases x with
  | line c x => simp [seenIn, wholeOf, netOf] at h
  | whole w | both w c x => cases w <;> simp [seenIn, wholeOf, netOf] at h; simp [Proc.within, h]

theorem seen_pipe_within {e : Pipe.Ev} {x : Full.Ev} (h : .pipe e ∈ seenIn [x]) : Proc.within x = some (.net (.pipe e)) := by
  cases x with
  | line c x => simp [seenIn, wholeOf, netOf] at h
  | whole w | both w c x => cases w <;> simp [seenIn, wholeOf, netOf] at h; simp [Proc.within, h]

/-- What is read when the topic `request` is gone is marked. -/
theorem unheard_after {s s' : Proc.Sys} {tr : List Proc.Ev} (h : Exec (Proc.Step m ω) s tr s') (ht : s.stop.requestTopic = false) {c n : Nat} {o : Resp}
    (hr : .read c n o ∈ seenOver tr) : s'.unheard n = true := by
  have key : s'.stop.requestTopic = false ∧ (.read c n o ∈ seenOver tr → s'.unheard n = true) := by
    refine h.inv (P := fun tr s' => s'.stop.requestTopic = false ∧ (.read c n o ∈ seenOver tr → s'.unheard n = true)) ⟨ht, by simp [seenOver, fullOf, seenIn, wholeOf, netOf]⟩ ?_
    rintro tr s1 l s2 - ⟨h1, h2⟩ hs
    refine ⟨(topics_kept hs).1 h1, fun hm => ?_⟩
    rw [seenOver_append, List.mem_append] at hm
    rcases hm with hm | hm
    · exact (marks_kept hs n).1 (h2 hm)
    · cases hs with
      | full e f _ _ _ =>
        have := seen_read_within (x := e) hm
        show s1.hears (Proc.within e) n = true
        rw [this]
        simp [Proc.Sys.hears, h1, upd]
      | both e x w f t _ e1 e2 =>
        have := seen_read_within (x := e) hm
        rw [e1] at this; cases this; cases e2
      | stop | told | engineLeft => simp [seenOver, fullOf, seenIn, wholeOf, netOf] at hm
  exact key.2 hr

/-- What is executed when the topic `response` is gone is marked. -/
theorem unsaid_after {s s' : Proc.Sys} {tr : List Proc.Ev} (h : Exec (Proc.Step m ω) s tr s') (ht : s.stop.responseTopic = false) {n : Nat} {env : Env} {r : Resp}
    (hr : .pipe (.executed n env r) ∈ seenOver tr) : s'.unsaid n = true := by
  have key : s'.stop.responseTopic = false ∧ (.pipe (.executed n env r) ∈ seenOver tr → s'.unsaid n = true) := by
    refine h.inv (P := fun tr s' => s'.stop.responseTopic = false ∧ (.pipe (.executed n env r) ∈ seenOver tr → s'.unsaid n = true)) ⟨ht, by simp [seenOver, fullOf, seenIn, wholeOf, netOf]⟩ ?_
    rintro tr s1 l s2 - ⟨h1, h2⟩ hs
    refine ⟨(topics_kept hs).2 h1, fun hm => ?_⟩
    rw [seenOver_append, List.mem_append] at hm
    rcases hm with hm | hm
    · exact (marks_kept hs n).2 (h2 hm)
    · cases hs with
      | full e f _ _ _ =>
        have := seen_pipe_within (x := e) hm
        show s1.says (Proc.within e) n = true
        rw [this]
        simp [Proc.Sys.says, h1, upd]
      | both e x w f t _ e1 e2 =>
        have := seen_pipe_within (x := e) hm
        rw [e1] at this; cases this; cases e2
      | stop | told | engineLeft => simp [seenOver, fullOf, seenIn, wholeOf, netOf] at hm
  exact key.2 hr

/-- The engine that has left has nothing to do. -/
theorem left_idle {tr : List Proc.Ev} {s : Proc.Sys} (h : Exec (Proc.Step m ω) (Proc.new d st) tr s) : s.left = true → ∀ k, s.full.whole.hub.engine ≠ .has k := by
  refine h.inv (P := fun _ s => s.left = true → ∀ k, s.full.whole.hub.engine ≠ .has k) (by simp [Proc.new]) ?_
  rintro _ s l s' - ih hs
  have hub : ∀ {e w f}, Full.Step ω s.full e f → Proc.within e = some w → Proc.allowed s w → s.left = true → ∀ k, f.whole.hub.engine ≠ .has k := by
    intro e w f hf hw ha hl k
    rcases full_within hf with ⟨w', h1, h2⟩ | ⟨h1, -⟩
    · rw [hw] at h1; cases h1
      rcases whole_outer h2 with ⟨x, hx, rfl⟩ | ⟨hx, -⟩
      · generalize f.whole.hub = g at *
        have ih := ih hl
        cases hx with
        | take => have := ha.2.2.2 rfl; rw [hl] at this; cases this
        | wait => simp
        | _ => first | exact ih k | simp
      · rw [hx]; exact ih hl k
    · rw [hw] at h1; cases h1
  cases hs with
  | full e f _ h1 h2 =>
    intro hl k
    rcases full_within h2 with ⟨w, g1, g2⟩ | ⟨g1, g2⟩
    · exact hub h2 g1 (h1 w g1).1 hl k
    · show f.whole.hub.engine ≠ _
      rw [g2]; exact ih hl k
  | both e x w f t _ h1 _ h2 h3 _ => exact fun hl k => hub h3 h1 h2 hl k
  | stop => exact ih
  | told i t _ _ he _ => intro _ k; show s.full.whole.hub.engine ≠ _; rw [he]; simp
  | engineLeft _ _ he _ => intro _ k; show s.full.whole.hub.engine ≠ _; rw [he]; simp

theorem left_kept {s s' : Proc.Sys} {e : Proc.Ev} (hs : Proc.Step m ω s e s') (hl : s.left = true) : s'.left = true := by
  cases hs <;> simp_all

/-- The server's part in what happens. -/
theorem proc_whole {s s' : Proc.Sys} {e : Proc.Ev} (hs : Proc.Step m ω s e s') :
    (s'.full.whole = s.full.whole ∧ wholeOf (fullOf [e]) = []) ∨ ∃ w, wholeOf (fullOf [e]) = [w] ∧ Whole.Step ω s.full.whole w s'.full.whole := by
  cases hs with
  | full e f _ _ h =>
    rcases full_within h with ⟨w, g1, g2⟩ | ⟨g1, g2⟩
    · refine .inr ⟨w, ?_, g2⟩
      cases e <;> simp [Proc.within] at g1 <;> subst g1 <;> rfl
    · refine .inl ⟨g2, ?_⟩
      cases e <;> simp [Proc.within] at g1
      rfl
  | both e x w f t _ h1 _ _ h _ =>
    rcases full_within h with ⟨w, g1, g2⟩ | ⟨g1, g2⟩
    · refine .inr ⟨w, ?_, g2⟩
      cases e <;> simp [Proc.within] at g1 <;> subst g1 <;> rfl
    · rw [h1] at g1; cases g1
  | stop | told | engineLeft => exact .inl ⟨rfl, rfl⟩

/-- A server whose engine has nothing to do executes nothing. -/
theorem idle_whole {w w' : Whole.Sys} {e : Whole.Ev} (hs : Whole.Step ω w e w') (hi : ∀ k, w.hub.engine ≠ .has k) :
    w'.begun = w.begun ∧ w'.hub.db = w.hub.db ∧ (w.pending = [] → w'.pending = []) ∧ (∀ q, e ≠ .received q) ∧ (∀ n env r, e ≠ .net (.pipe (.executed n env r))) := by
  have hub : ∀ {x h}, Hub.Step w.hub x h → h.db = w.hub.db := by
    intro x h hx
    cases hx with
    | execute _ _ _ _ _ _ _ _ _ h1 => exact absurd h1 (hi _)
    | _ => rfl
  cases hs with
  | receive _ _ _ _ _ _ h1 => exact absurd h1 (hi _)
  | execute _ _ _ _ _ _ h1 => cases h1 with | execute _ _ _ _ _ _ _ _ _ h1 => exact absurd h1 (hi _)
  | record q b a _ _ h1 => refine ⟨rfl, rfl, fun h => ?_, by simp, by simp⟩; rw [h1] at h; simp at h
  | read _ _ _ _ _ _ _ h1 | bus _ _ _ _ h1 => exact ⟨rfl, hub h1, id, by simp, by simp⟩
  | pass e _ _ hb h1 => refine ⟨rfl, hub h1, id, by simp, ?_⟩; rintro n env r h; simp at h; subst h; simp [Whole.between] at hb
  | crash _ _ _ _ _ h1 => exact ⟨rfl, hub h1, id, by simp, by simp⟩
  | feed | kill | flush => exact ⟨rfl, rfl, id, by simp, by simp⟩

/-- Once the engine has left, nothing is executed. -/
theorem left_still {tr after : List Proc.Ev} {s s' : Proc.Sys} (h : Exec (Proc.Step m ω) (Proc.new d st) tr s) (hl : s.left = true)
    (hx : Exec (Proc.Step m ω) s after s') :
    s'.left = true ∧ s'.full.whole.begun = s.full.whole.begun ∧ s'.full.whole.hub.db = s.full.whole.hub.db ∧
      (s.full.whole.pending = [] → s'.full.whole.pending = []) ∧ doneIn (seenOver after) = [] ∧ begunIn (wholeOf (fullOf after)) = [] := by
  refine hx.inv (P := fun after s' => s'.left = true ∧ s'.full.whole.begun = s.full.whole.begun ∧ s'.full.whole.hub.db = s.full.whole.hub.db ∧
      (s.full.whole.pending = [] → s'.full.whole.pending = []) ∧ doneIn (seenOver after) = [] ∧ begunIn (wholeOf (fullOf after)) = []) ⟨hl, rfl, rfl, id, rfl, rfl⟩ ?_
  rintro after s1 e s2 hx ⟨h1, h2, h3, h4, h5, h6⟩ hs
  have hi := left_idle (h.append hx) h1
  have e1 : seenOver [e] = netOf (wholeOf (fullOf [e])) := rfl
  rcases proc_whole hs with ⟨hw, e2⟩ | ⟨w, hw, hst⟩
  · refine ⟨left_kept hs h1, by rw [hw, h2], by rw [hw, h3], by rw [hw]; exact h4, ?_, ?_⟩
    · rw [seenOver_append, Props.doneIn_append, h5, e1, e2]; rfl
    · rw [fullOf_append, wholeOf_append, Props.begunIn_append, h6, e2]; rfl
  · obtain ⟨k1, k2, k3, k4, k5⟩ := idle_whole hst hi
    refine ⟨left_kept hs h1, by rw [k1, h2], by rw [k2, h3], fun hp => k3 (h4 hp), ?_, ?_⟩
    · rw [seenOver_append, Props.doneIn_append, h5, e1, hw]
      cases w with
      | net x => cases x with
        | pipe x => cases x with
          | executed n env r => exact absurd rfl (k5 n env r)
          | _ => rfl
        | _ => rfl
      | _ => rfl
    · rw [fullOf_append, wholeOf_append, Props.begunIn_append, h6, hw]
      cases w with
      | received q => exact absurd rfl (k4 q)
      | _ => rfl

theorem left_begun {tr : List Proc.Ev} {s : Proc.Sys} (h : Exec (Proc.Step m ω) (Proc.new d st) tr s) (hl : s.left = true) : s.full.whole.begun = none := by
  obtain ⟨n, -, k⟩ := Props.whole_net (full_exec (proc_exec h).1).1
  by_contra hb
  obtain ⟨q, hq⟩ := Option.ne_none_iff_exists'.1 hb
  obtain ⟨i, x, id, h1, -⟩ := k.begun q hq
  exact left_idle h hl _ h1

theorem flush_clean (ω : Nat → Nat) (p : PFile) (h : (p.flush ω).failed = false) : (p.flush ω).buf = [] := by
  unfold PFile.flush at *
  split at h
  · rename_i hf; rw [hf] at h; cases h
  · rename_i hf
    split at h
    · rename_i hb; simp [hf, hb]
    · rename_i hb
      simp only [PFile.sysWrite, decide_eq_false_iff_not, Nat.not_lt, hf, hb, if_false] at h ⊢
      simpa using h

/-- When the engine has left and nobody is waiting to write, only the buffer goes out. -/
theorem calm_file {tr after : List Proc.Ev} {s s' : Proc.Sys} (h : Exec (Proc.Step m ω) (Proc.new d st) tr s) (hl : s.left = true)
    (hp : s.full.whole.pending = []) (hb : s.full.whole.file.failed = true ∨ s.full.whole.file.buf = []) (hx : Exec (Proc.Step m ω) s after s') :
    (s.full.whole.file.failed = true ∧ s'.full.whole.file.failed = true) ∨ s.full.whole.file.buf = [] ∧ s'.full.whole.file = s.full.whole.file := by
  have key : s'.full.whole.file = s.full.whole.file := by
    refine hx.inv (P := fun _ s' => s'.full.whole.file = s.full.whole.file) rfl ?_
    rintro after s1 e s2 hx ih hs
    rcases proc_whole hs with ⟨hw, -⟩ | ⟨w, hw, hst⟩
    · rw [hw, ih]
    · have hp1 := (left_still h hl hx).2.2.2.1 hp
      rw [← ih]
      generalize s2.full.whole = x at hst ⊢
      cases hst with
      | record q b a _ _ h1 => rw [hp1] at h1; simp at h1
      | flush =>
        show PFile.flush ω _ = _
        rw [ih]
        unfold PFile.flush
        rcases hb with hb | hb <;> simp [hb]
      | _ => rfl
  rcases hb with hb | hb
  · exact .inl ⟨hb, by rw [key, hb]⟩
  · exact .inr ⟨hb, key⟩

theorem stopped_settled {tr : List Proc.Ev} {s : Proc.Sys} (h : StoppedWell (Proc.Step m ω) (Proc.new d st) tr s) :
    Exec (Proc.Step m ω) (Proc.new d st) tr s ∧ Settled s.full.whole := by
  obtain ⟨before, s1, i, s2, after, rfl, h1, h2, h3, h4, h5, h6⟩ := h
  have hx := h1.append (.cons h4 h5)
  refine ⟨hx, ?_⟩
  have l2 := left_kept h4 h2
  obtain ⟨k1, -, -, k2, -⟩ := left_still h1 h2 (.cons h4 h5)
  obtain ⟨-, -, -, k3, -⟩ := left_still h1 h2 (.one h4)
  refine ⟨left_begun hx k1, k2 h3, h6, ?_⟩
  have hf : s2.full.whole.file.failed = true ∨ s2.full.whole.file.buf = [] := by
    rcases proc_whole h4 with ⟨-, e⟩ | ⟨w, e, hst⟩
    · cases e
    · have : w = .flushed := by cases e; rfl
      subst this
      rcases whole_file hst with ⟨q, h, -⟩ | ⟨-, h⟩ | ⟨-, h, -⟩
      · cases h
      · rw [h]
        cases hc : (PFile.flush ω s1.full.whole.file).failed
        · exact .inr (flush_clean ω _ hc)
        · exact .inl rfl
      · exact absurd rfl h
  rcases calm_file (h1.snoc h4) l2 (k3 h3) hf h5 with ⟨-, h⟩ | ⟨h, h'⟩
  · rw [h6] at h; cases h
  · rw [h', h]

end Verif
