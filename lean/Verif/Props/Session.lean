import Verif.Model.ClientMain
import Verif.Spec.Session
import Verif.Props.Client
import Verif.Props.Reply
import Verif.Props.Strings

/-! # C61 – a session with the command line client -/

namespace Verif.Props

open Verif Spec Client

theorem taken_dropCR {l s : Bytes} (h : TakenAs l s) : dropCR l = s := by
  cases h with
  | cr l => simp [dropCR]
  | same h =>
    unfold dropCR
    rw [if_neg]
    intro e
    obtain ⟨p, hp⟩ := List.getLast?_eq_some_iff.1 e
    exact h p hp

theorem taken_total (l : Bytes) : ∃ s, TakenAs l s := by
  by_cases h : ∃ p, l = p ++ [13]
  · obtain ⟨p, rfl⟩ := h
    exact ⟨p, .cr p⟩
  · exact ⟨l, .same fun p e => h ⟨p, e⟩⟩

theorem takeWhile_line {l rest : Bytes} (hl : (10 : UInt8) ∉ l) (hr : rest = [] ∨ rest.head? = some 10) :
    (l ++ rest).takeWhile (· ≠ 10) = l := by
  rw [List.takeWhile_append_of_pos (by intro x hx; simp; rintro rfl; exact hl hx)]
  rcases hr with rfl | hr
  · simp
  · cases rest with
    | nil => simp
    | cons b r => simp at hr; simp [hr]

theorem scan_line {l s rest : Bytes} (hl : Line l) (ht : TakenAs l s) (hr : (rest = [] ∧ l ≠ []) ∨ rest.head? = some 10) :
    scan (l ++ rest) = some (s, rest.drop 1) := by
  have hne : l ++ rest ≠ [] := by
    rcases hr with ⟨-, h⟩ | h
    · simp [h]
    · cases rest <;> simp at h ⊢
  unfold scan
  rw [takeWhile_line hl.1 (hr.imp And.left id)]
  rw [if_neg hne, if_neg (by have := hl.2; omega), taken_dropCR ht]
  simp [List.drop_append]

theorem scan_long {l rest : Bytes} (hl : (10 : UInt8) ∉ l) (hn : 65536 ≤ l.length) : scan (l ++ rest) = none := by
  unfold scan
  have h : 65536 ≤ ((l ++ rest).takeWhile (· ≠ 10)).length := by
    rw [List.takeWhile_append_of_pos (by intro x hx; simp; rintro rfl; exact hl hx)]
    simp; omega
  simp only [h, if_true, ite_self]

/-- C61: whatever is typed, it is a list of lines. -/
theorem C61_entered (input : Bytes) : ∃ ls, Entered input ls := by
  induction hn : input.length using Nat.strong_induction_on generalizing input with
  | _ n ih =>
    subst hn
    by_cases h0 : input = []
    · exact ⟨[], h0 ▸ .nothing⟩
    rcases split_at (· == 10) input with h | ⟨l, b, rest, rfl, hl, hb⟩
    · have h10 : (10 : UInt8) ∉ input := fun hm => by simpa using h _ hm
      by_cases hlen : 65536 ≤ input.length
      · exact ⟨[], by simpa using Entered.long (rest := []) h10 hlen⟩
      obtain ⟨s, hs⟩ := taken_total input
      have hL : Line input := ⟨h10, by omega⟩
      by_cases hq : Quits s
      · exact ⟨[], by simpa using Entered.quit (rest := []) hL hs hq (.inl rfl)⟩
      · exact ⟨[s], .last hL h0 hs hq⟩
    · have h10 : (10 : UInt8) ∉ l := fun hm => by simpa using hl _ hm
      have hb : b = 10 := by simpa using hb
      subst hb
      by_cases hlen : 65536 ≤ l.length
      · exact ⟨[], .long h10 hlen⟩
      obtain ⟨s, hs⟩ := taken_total l
      have hL : Line l := ⟨h10, by omega⟩
      by_cases hq : Quits s
      · exact ⟨[], .quit hL hs hq (.inr rfl)⟩
      · obtain ⟨ls, hls⟩ := ih rest.length (by simp; omega) rest rfl
        exact ⟨s :: ls, .line hL hs hq hls⟩

/-- The requests for lines with the given words, each with its surroundings. -/
def asked (envs : Nat → Env) : Nat → List (List Bytes) → List (Env × List Resp)
  | _, [] => []
  | n, ws :: wss => (envs n, ws.map .bulk) :: asked envs (n + 1) wss

/-- The screen for replies: after each prompt the reply, on lines of its own. -/
def onScreen (rs : List Resp) : List Seen := rs.flatMap fun r => [.print b!">>> ", .print (formatOutput r ++ [10])]

theorem line_length {l s : Bytes} (hl : Line l) (ht : TakenAs l s) : s.length + 2 < 2 ^ 63 := by
  have : s.length ≤ l.length := by cases ht <;> simp
  have := hl.2
  omega

theorem line_noLF {l s : Bytes} (hl : Line l) (ht : TakenAs l s) : (10 : UInt8) ∉ s := by
  have := hl.1
  cases ht
  · exact fun h => this (by simp [h])
  · exact this

theorem answer_line {envs : Nat → Env} {n : Nat} {st : State} {s : Bytes} {ws : List Bytes} (hs : s.length + 2 < 2 ^ 63) (hw : Words s ws) :
    ∃ out, formatInput s = .ok out ∧ Served.answer envs ⟨n, some st⟩ out = match handle (envs n) st (ws.map .bulk) with
      | .ok (st', r) => (⟨n + 1, some st'⟩, .bytes r.encode)
      | .panic => (⟨n + 1, none⟩, .closed)
      | .diverge => (⟨n + 1, some st⟩, .silent) := by
  obtain ⟨ws', hw', hf⟩ := C52_sent s
  obtain rfl := C52_words_unique hw hw'
  refine ⟨_, hf, ?_⟩
  obtain ⟨ws', hw', hp⟩ := C52_received hs hf []
  obtain rfl := C52_words_unique hw hw'
  rw [List.append_nil] at hp
  simp only [Served.answer, hp, Pipe.asArray]
  cases handle (envs n) st (ws.map .bulk) <;> rfl

theorem words_chars {line : Bytes} {ws : List Bytes} (h : Words line ws) : ∀ w ∈ ws, ∀ c ∈ w, c ∈ line := by
  have kl : ∀ w : Bytes, ∀ x ∈ keep w, x = w := by
    intro w
    cases w <;> simp [keep]
  induction h with
  | last => intro w hw c hc; rwa [kl _ w hw] at hc
  | space _ _ ih =>
    intro w hw c hc
    rcases List.mem_append.1 hw with hw | hw
    · rw [kl _ w hw] at hc; simp [hc]
    · simp [ih w hw c hc]
  | quoted _ _ _ ih =>
    intro w hw c hc
    rcases List.mem_append.1 hw with hw | hw
    · rw [kl _ w hw] at hc; simp [hc]
    · simp [ih w hw c hc]
  | unclosed => simp

theorem reply_read {env : Env} {st st' : State} {a : DB} {ws : List Bytes} {r : Resp} (h : Abs st a) (ho : env.ord.Fair)
    (hl : ∀ w ∈ ws, (10 : UInt8) ∉ w) (hh : handle env st (ws.map .bulk) = .ok (st', r)) (hs : Sized r) : parse r.encode = .ok r [] := by
  have := C55_plain h ho (forall₂_bulk ws) hl hh hs []
  rwa [List.append_nil] at this

/-- One round of the loop on a line that is no order to quit. -/
theorem loop_line {envs : Nat → Env} {n f : Nat} {st st' : State} {a : DB} {input rest s : Bytes} {ws : List Bytes} {r : Resp} (h : Abs st a)
    (ho : (envs n).ord.Fair) (hsc : scan input = some (s, rest)) (hq : ¬ Quits s) (hl : s.length + 2 < 2 ^ 63) (h10 : (10 : UInt8) ∉ s)
    (hw : Words s ws) (hh : handle (envs n) st (ws.map .bulk) = .ok (st', r)) (hs : Sized r) :
    mainLoop (Served.answer envs) (f + 1) ⟨n, some st⟩ input =
      (.print b!">>> " :: .print (formatOutput r ++ [10]) :: (mainLoop (Served.answer envs) f ⟨n + 1, some st'⟩ rest).1,
        (mainLoop (Served.answer envs) f ⟨n + 1, some st'⟩ rest).2) := by
  obtain ⟨out, hf, ha⟩ := answer_line (envs := envs) (n := n) (st := st) hl hw
  rw [hh] at ha
  have hq' : ¬ (s = b!"QUIT" ∨ s = b!"quit") := fun e => hq e.symm
  rw [mainLoop, hsc]
  simp only [if_neg hq', hf, ha, reply_read h ho (fun w hw' hc => h10 (words_chars hw w hw' _ hc)) hh hs, prompt]

theorem entered_cons {input s : Bytes} {ls : List Bytes} (h : Entered input (s :: ls)) :
    ∃ rest, scan input = some (s, rest) ∧ ¬ Quits s ∧ s.length + 2 < 2 ^ 63 ∧ (10 : UInt8) ∉ s ∧ Entered rest ls ∧ rest.length < input.length := by
  generalize he : s :: ls = l' at h
  cases h with
  | nothing => simp at he
  | long => simp at he
  | quit => simp at he
  | line hl ht hq hr =>
    obtain ⟨rfl, rfl⟩ := List.cons.inj he
    exact ⟨_, scan_line (rest := 10 :: _) hl ht (.inr rfl), hq, line_length hl ht, line_noLF hl ht, hr, by simp; omega⟩
  | last hl h0 ht hq =>
    obtain ⟨rfl, rfl⟩ := List.cons.inj he
    have hsc := scan_line (rest := []) hl ht (.inl ⟨rfl, h0⟩)
    rw [List.append_nil] at hsc
    exact ⟨_, hsc, hq, line_length hl ht, line_noLF hl ht, .nothing, by simpa using List.length_pos_iff.2 h0⟩

theorem entered_nil {input : Bytes} (h : Entered input []) : scan input = none ∨ ∃ s rest, scan input = some (s, rest) ∧ Quits s := by
  generalize he : ([] : List Bytes) = l' at h
  cases h with
  | nothing => exact .inl (by simp [scan])
  | long hl hn => exact .inl (scan_long hl hn)
  | @quit l s rest hl ht hq hr =>
    refine .inr ⟨s, _, scan_line hl ht ?_, hq⟩
    rcases hr with rfl | hr
    · left
      refine ⟨rfl, fun e => ?_⟩
      subst e
      generalize he : ([] : Bytes) = e at ht
      cases ht with
      | cr => simp at he
      | same => subst he; rcases hq with hq | hq <;> simp at hq
    · exact .inr hr
  | line => simp at he
  | last => simp at he

/-- The lines at the beginning of the input. -/
theorem loop_lines {envs : Nat → Env} (he : ∀ n, (envs n).ord.Fair) {ls ls2 : List Bytes} {wss : List (List Bytes)} {rs : List Resp} {input : Bytes}
    {n f : Nat} {st st' : State} {a : DB} (hi : Entered input (ls ++ ls2)) (hw : List.Forall₂ Words ls wss) (h : Abs st a) (hf : input.length < f)
    (hs : serve st (asked envs n wss) = .ok (st', rs)) (hz : ∀ r ∈ rs, Sized r) :
    ∃ rest g a', Entered rest ls2 ∧ rest.length < g ∧ Abs st' a' ∧ mainLoop (Served.answer envs) f ⟨n, some st⟩ input =
      (onScreen rs ++ (mainLoop (Served.answer envs) g ⟨n + ls.length, some st'⟩ rest).1,
        (mainLoop (Served.answer envs) g ⟨n + ls.length, some st'⟩ rest).2) := by
  induction hw generalizing input n f st a rs with
  | nil =>
    simp only [asked, serve, Outcome.ok.injEq, Prod.mk.injEq] at hs
    obtain ⟨rfl, rfl⟩ := hs
    exact ⟨input, f, a, hi, hf, h, by simp [onScreen]⟩
  | @cons s ws ls wss hw hws ih =>
    obtain ⟨f, rfl⟩ : ∃ g, f = g + 1 := ⟨f - 1, by omega⟩
    obtain ⟨rest, hsc, hq, hl, h10, hr, hlt⟩ := entered_cons (by simpa using hi)
    simp only [asked, serve] at hs
    cases hh : handle (envs n) st (ws.map .bulk) with
    | panic => simp [hh] at hs
    | diverge => simp [hh] at hs
    | ok p =>
      obtain ⟨st1, r⟩ := p
      simp only [hh] at hs
      cases hs1 : serve st1 (asked envs (n + 1) wss) with
      | panic => simp [hs1] at hs
      | diverge => simp [hs1] at hs
      | ok p =>
        obtain ⟨st2, rs1⟩ := p
        simp only [hs1, Outcome.ok.injEq, Prod.mk.injEq] at hs
        obtain ⟨rfl, rfl⟩ := hs
        obtain ⟨a1, -, ha1⟩ := serve_trace (reqs := [(envs n, ws.map .bulk)]) (st' := st1) (rs := [r]) h
          (by simpa using he n) (by simp [serve, hh])
        obtain ⟨rest', g, a', e1, e2, e3, e4⟩ := ih hr ha1 (by omega : rest.length < f) hs1 (fun r hr => hz r (by simp [hr]))
        refine ⟨rest', g, a', e1, e2, e3, ?_⟩
        rw [loop_line h (he n) hsc hq hl h10 hw hh (hz r (by simp)), e4]
        rw [show n + (s :: ls).length = n + 1 + ls.length by simp; omega]
        simp [onScreen]

/-- C61: a session. The user types anything; the lines entered (up to the end of the input, an overlong line or the order to quit) are sent one
by one, and the screen shows after each prompt the server's reply to the words of the line, and a last prompt; the server is left in the
state after these requests. (Replies must be of a size the client can read, and the server must not crash: see `C61_crash`.) -/
theorem C61_session {envs : Nat → Env} {input : Bytes} {ls : List Bytes} {wss : List (List Bytes)} {st st' : State} {a : DB} {rs : List Resp}
    (h : Abs st a) (he : ∀ n, (envs n).ord.Fair) (hi : Entered input ls) (hw : List.Forall₂ Words ls wss)
    (hs : serve st (asked envs 0 wss) = .ok (st', rs)) (hz : ∀ r ∈ rs, Sized r) :
    run (Served.answer envs) ⟨0, some st⟩ input = (onScreen rs ++ [.print b!">>> "], ⟨ls.length, some st'⟩) := by
  obtain ⟨rest, g, a', e1, e2, -, e4⟩ := loop_lines he (ls2 := []) (by simpa using hi) hw h (Nat.lt_succ_self input.length) hs hz
  rw [run, e4]
  obtain ⟨g, rfl⟩ : ∃ k, g = k + 1 := ⟨g - 1, by omega⟩
  rcases entered_nil e1 with hc | ⟨s, rest', hc, hq⟩
  · simp [mainLoop, hc, prompt]
  · simp [mainLoop, hc, if_pos hq.symm, prompt]

/-- C61: when the server crashes on a line, the client says so and ends. -/
theorem C61_crash {envs : Nat → Env} {input s : Bytes} {ls ls2 : List Bytes} {ws : List Bytes} {wss : List (List Bytes)} {st st' : State} {a : DB}
    {rs : List Resp} (h : Abs st a) (he : ∀ n, (envs n).ord.Fair) (hi : Entered input (ls ++ s :: ls2)) (hw : List.Forall₂ Words ls wss) (hs : Words s ws)
    (hok : serve st (asked envs 0 wss) = .ok (st', rs)) (hz : ∀ r ∈ rs, Sized r) (hp : handle (envs ls.length) st' (ws.map .bulk) = .panic) :
    run (Served.answer envs) ⟨0, some st⟩ input = (onScreen rs ++ [.print b!">>> ", .readError], ⟨ls.length + 1, none⟩) := by
  obtain ⟨rest, g, a', e1, e2, -, e4⟩ := loop_lines he hi hw h (Nat.lt_succ_self input.length) hok hz
  rw [Nat.zero_add] at e4
  rw [run, e4]
  obtain ⟨g, rfl⟩ : ∃ k, g = k + 1 := ⟨g - 1, by omega⟩
  obtain ⟨rest', hsc, hq, hl, -, -, -⟩ := entered_cons e1
  obtain ⟨out, hf, ha⟩ := answer_line (envs := envs) (n := ls.length) (st := st') hl hs
  rw [hp] at ha
  have hq' : ¬ (s = b!"QUIT" ∨ s = b!"quit") := fun e => hq e.symm
  simp only [mainLoop, hsc, if_neg hq', hf, ha, prompt]

theorem asked_append (envs : Nat → Env) (n : Nat) (xs ys : List (List Bytes)) : asked envs n (xs ++ ys) = asked envs n xs ++ asked envs (n + xs.length) ys := by
  induction xs generalizing n with
  | nil => simp [asked]
  | cons x xs ih =>
    rw [show n + (x :: xs).length = n + 1 + xs.length by simp; omega]
    simp [asked, ih]

theorem asked_fair {envs : Nat → Env} (he : ∀ n, (envs n).ord.Fair) {n : Nat} {wss : List (List Bytes)} : ∀ q ∈ asked envs n wss, q.1.ord.Fair := by
  induction wss generalizing n with
  | nil => simp [asked]
  | cons ws wss ih => simpa [asked] using ⟨he n, fun e os hq => ih (e, os) hq⟩

theorem asked_words {envs : Nat → Env} {n : Nat} {wss : List (List Bytes)} : ∀ q ∈ asked envs n wss, ∃ ws ∈ wss, q.2 = ws.map .bulk := by
  induction wss generalizing n with
  | nil => simp [asked]
  | cons ws wss ih =>
    intro q hq
    rcases List.mem_cons.1 hq with rfl | hq
    · exact ⟨ws, by simp, rfl⟩
    · obtain ⟨w, hw, e⟩ := ih q hq
      exact ⟨w, by simp [hw], e⟩

/-- C61: what the user stored is what the user sees. After a line that sets the string `k` to `v`, any lines that do not write that string, and a
line that asks for it, the screen ends with `v` between quotes and a prompt, whatever came before on the server. -/
theorem C61_set_get {envs : Nat → Env} {input l l' n n' k v : Bytes} {mid : List Bytes} {mids : List (List Bytes)} {st st' : State} {a : DB}
    {rs : List Resp} (h : Abs st a) (he : ∀ n, (envs n).ord.Fair) (hi : Entered input (l :: (mid ++ [l']))) (hl : Words l [n, k, v]) (hn : Folds n b!"set")
    (hl' : Words l' [n', k]) (hn' : Folds n' b!"get") (hm : List.Forall₂ Words mid mids) (hw : ∀ ws ∈ mids, ¬ Writes .str (ws.map .bulk) k)
    (hs : serve st (asked envs 0 ([n, k, v] :: mids)) = .ok (st', rs)) (hz : ∀ r ∈ rs, Sized r) :
    ∃ outs w, run (Served.answer envs) ⟨0, some st⟩ input = (outs ++ [.print b!">>> ", .print (34 :: (v ++ [34, 10])), .print b!">>> "], w) := by
  have hv : v.length + 2 < 2 ^ 63 := by
    obtain ⟨rest, -, -, h1, -⟩ := entered_cons hi
    have h2 := ((words_bounds hl).2 v (by simp)).1
    omega
  have hreq : ∀ {n name : Bytes} {args : List Bytes}, Folds n name → Request ((n :: args).map .bulk) name args := fun {n name args} hf =>
    ⟨args.map .bulk, ⟨_, n, rfl, .bulk n, hf⟩, by
      induction args with
      | nil => exact .nil
      | cons x xs ih => exact .cons (.bulk x) ih⟩
  obtain ⟨st'', e⟩ := C09_get_after_set h (he 0) (he (1 + mids.length)) (asked_fair he (n := 1)) (hreq hn)
    (fun q hq => by obtain ⟨ws, hm, e⟩ := asked_words q hq; rw [e]; exact hw ws hm) hs (hreq hn')
  have e' : serve st (asked envs 0 ([n, k, v] :: (mids ++ [[n', k]]))) = .ok (st'', rs ++ [.bulk v]) := by
    rw [← e]
    simp [asked, asked_append]
  refine ⟨onScreen rs, ⟨(l :: (mid ++ [l'])).length, some st''⟩, (C61_session h he hi (.cons hl (List.rel_append hm (.cons hl' .nil))) e' ?_).trans ?_⟩
  · intro r hr
    rcases List.mem_append.1 hr with hr | hr
    · exact hz r hr
    · rw [List.mem_singleton.1 hr]; exact .bulk hv
  · simp [onScreen, formatOutput_bulk]

/-- The hypotheses of C61_crash can be met: popping the only member of a set and then another one. -/
example : ∃ w, run (Served.answer fun _ => env0) ⟨0, some State.empty⟩ b!"sadd o x\nspop o\nspop o\nget k" =
    ([.print b!">>> ", .print b!"(integer) 1\n", .print b!">>> ", .print b!"\"x\"\n", .print b!">>> ", .readError], w) := ⟨_, rfl⟩

/-- The hypotheses can be met: a user types `set k "a b"`, `RPUSH k x`, `Get k` and `quit`. -/
example : ∃ w, run (Served.answer fun _ => env0) ⟨0, some State.empty⟩ b!"set k \"a b\"\nRPUSH k x\r\nGet k\nquit\nset k y\n" =
    ([.print b!">>> ", .print b!"\"OK\"\n", .print b!">>> ", .print b!"(integer) 1\n", .print b!">>> ", .print b!"\"a b\"\n",
      .print b!">>> "], w) := ⟨_, rfl⟩

/-- A server that has died answers nothing. -/
theorem answers_dead (envs : Nat → Env) (s : Served) (h : s.db = none) (reqs : List Bytes) :
    reqs.foldl (fun (p : Served × List Back) q => ((Served.answer envs p.1 q).1, p.2 ++ [(Served.answer envs p.1 q).2])) (s, []) =
      (s, List.replicate reqs.length .closed) := by
  suffices ∀ acc, reqs.foldl (fun (p : Served × List Back) q => ((Served.answer envs p.1 q).1, p.2 ++ [(Served.answer envs p.1 q).2])) (s, acc) =
      (s, acc ++ List.replicate reqs.length .closed) by simpa using this []
  induction reqs with
  | nil => simp
  | cons q qs ih =>
    intro acc
    simp only [List.foldl_cons, List.length_cons, List.replicate_succ]
    rw [show Served.answer envs s q = (s, .closed) by simp [Served.answer, h], ih]
    simp

/-- C61 (what the code does to the others): a client of one's own making that sends a request with a bulk header of length -2 ends the process: this
and all later requests find the connection closed, and the data is gone, whatever was stored. -/
theorem C61_killed (envs : Nat → Env) (n : Nat) (st : Option State) (req : Bytes) (h : ReachesMinusTwo req) (later : List Bytes) :
    ∃ m, Served.answer envs ⟨n, st⟩ req = (⟨m, none⟩, .closed) ∧
      later.foldl (fun (p : Served × List Back) q => ((Served.answer envs p.1 q).1, p.2 ++ [(Served.answer envs p.1 q).2])) (⟨m, none⟩, []) =
        (⟨m, none⟩, List.replicate later.length .closed) := by
  refine ⟨n, ?_, answers_dead envs _ rfl later⟩
  cases st with
  | none => rfl
  | some st => simp [Served.answer, (C05_panic_iff req).2 h]

example : ReachesMinusTwo b!"*1\r\n$-2\r\n" := (C05_panic_iff _).1 C05_counterexample

end Verif.Props
