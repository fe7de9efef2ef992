import Verif.Spec.Logging

/-! C71: what the log of the program says. -/

namespace Verif.Props

open Verif Verif.Spec Verif.Logging

/-- A template filled with whatever arguments there are. -/
def logFill : List LogPiece → List Arg → Bytes
  | [], as => finish as
  | .text b :: ps, as => b ++ logFill ps as
  | .hole w :: ps, as => (next w as).1 ++ logFill ps (next w as).2

theorem sprintf_char (c : UInt8) (t : Bytes) (as : List Arg) (h : c ≠ 37) : sprintf (c :: t) as = (sprintf t as).map (c :: ·) := by
  rw [sprintf] <;> simp_all

theorem sprintf_verb (w : Verb) (t : Bytes) (as : List Arg) :
    sprintf (37 :: w.letter :: t) as = (sprintf t (next w as).2).map ((next w as).1 ++ ·) := by
  cases w <;> simp [Verb.letter, sprintf]

theorem sprintf_text (b t : Bytes) (as : List Arg) : sprintf (escapePercent b ++ t) as = (sprintf t as).map (b ++ ·) := by
  induction b with
  | nil => simp [escapePercent]
  | cons c b ih =>
    rw [escapePercent]
    split
    · next h => subst h; simp [sprintf, ih, Function.comp_def]
    · next h => simp [sprintf_char _ _ _ h, ih, Function.comp_def]

theorem sprintf_template (ps : List LogPiece) (as : List Arg) : sprintf (logTemplate ps) as = some (logFill ps as) := by
  induction ps generalizing as with
  | nil => simp [logTemplate, logFill, sprintf]
  | cons p ps ih =>
    cases p with
    | text b => simp [logTemplate, logFill, sprintf_text, ih]
    | hole w => simp [logTemplate, logFill, sprintf_verb, ih]

theorem logFill_fits {ps : List LogPiece} {vs : List Val} (h : LogFits ps vs) : logFill ps (vs.map .val) = logMessage ps vs := by
  induction ps generalizing vs with
  | nil => cases h; rfl
  | cons p ps ih =>
    cases p with
    | text b => simp [logFill, logMessage, ih (show LogFits ps vs from h)]
    | hole w =>
      cases vs with
      | nil => cases w <;> exact h.elim
      | cons v vs =>
        cases w <;> cases v <;> first | exact h.elim | skip
        all_goals
          simp [logFill, next, printArg, printVal, logMessage, shown, ih (show LogFits ps vs from h)]

/-- The message is never shorter than the values under a verb. -/
theorem printVal_length (w : Verb) (v : Val) : (shown v).length ≤ (printVal w v).length := by
  cases w <;> cases v <;> simp [printVal, shown] <;> omega

theorem printVals_length (w : Verb) (vs : List Val) : (vs.map fun v => (shown v).length).sum ≤ (printVals w vs).length := by
  induction vs with
  | nil => simp
  | cons v vs ih =>
    have := printVal_length w v
    cases vs with
    | nil => simpa [printVals] using this
    | cons y ys => simp [printVals] at ih ⊢; omega

/-- The length of all texts. -/
def textLength : List LogPiece → Nat
  | [] => 0
  | .text b :: ps => b.length + textLength ps
  | .hole _ :: ps => textLength ps

theorem logMessage_length {ps : List LogPiece} {vs : List Val} (h : LogFits ps vs) :
    (logMessage ps vs).length = textLength ps + (vs.map fun v => (shown v).length).sum := by
  induction ps generalizing vs with
  | nil => cases h; rfl
  | cons p ps ih =>
    cases p with
    | text b => simp [logMessage, textLength, ih (show LogFits ps vs from h)]; omega
    | hole w =>
      cases vs with
      | nil => cases w <;> exact h.elim
      | cons v vs =>
        cases w <;> cases v <;> first | exact h.elim | skip
        all_goals
          simp [logMessage, textLength, ih (show LogFits ps vs from h)]; omega

theorem logFill_length_nil (ps : List LogPiece) : textLength ps ≤ (logFill ps []).length := by
  induction ps with
  | nil => simp [textLength]
  | cons p ps ih => cases p <;> simp [logFill, textLength, next] <;> omega

theorem logFill_length (ps : List LogPiece) (vs : List Val) :
    textLength ps + (vs.map fun v => (shown v).length).sum < (logFill ps [.vals vs]).length := by
  induction ps with
  | nil =>
    have := printVals_length .v vs
    simp [logFill, textLength, finish, extras, printArg]; omega
  | cons p ps ih =>
    cases p with
    | text b => simp [logFill, textLength]; omega
    | hole w =>
      have := printVals_length w vs
      have := logFill_length_nil ps
      simp [logFill, textLength, next, printArg]; omega

/-- `Errorf` is right: the error it returns always carries the message, before `InitLog` and whatever the level; and that message is what is
written to the log (if errors are) as soon as there is an argument. -/
theorem C71_errorf (logger : Option Level) {ps : List LogPiece} {vs : List Val} (h : LogFits ps vs) (hv : vs ≠ []) (ht : logTemplate ps ≠ []) :
    logf logger .error (logTemplate ps) vs =
      some { written := match logger with
               | some t => if t = .debug ∨ t = .info ∨ t = .warn ∨ t = .error then some (logMessage ps vs) else none
               | none => none
             ending := .returned, error := some (logMessage ps vs) } := by
  have e : zapMessage (logTemplate ps) (vs.map .val) = some (logMessage ps vs) := by
    rcases vs with _ | ⟨a, _ | ⟨b, vs⟩⟩
    · exact absurd rfl hv
    · simpa [zapMessage, ht, logFill_fits h] using (sprintf_template ps ([a].map .val)).trans (by rw [logFill_fits h])
    · simpa [zapMessage, ht] using (sprintf_template ps ((a :: b :: vs).map .val)).trans (by rw [logFill_fits h])
  cases logger with
  | none => simp [logf, log, e, sprintf_template, logFill_fits h]
  | some t => cases t <;> simp [logf, log, e, sprintf_template, logFill_fits h, enabled, Level.num, ending]

/-- The full claim, that the message written is the template with the holes filled, is false of every other function and of every
template and arguments: whatever is written, it is longer than the message. -/
theorem C71_false {t lvl : Level} (hl : lvl ≠ .error) {ps : List LogPiece} {vs : List Val} (h : LogFits ps vs) {e : Effect} {m : Bytes}
    (he : logf (some t) lvl (logTemplate ps) vs = some e) (hm : e.written = some m) :
    (logMessage ps vs).length < m.length ∧ m ≠ logMessage ps vs := by
  suffices hlt : (logMessage ps vs).length < m.length from ⟨hlt, fun hh => by rw [hh] at hlt; omega⟩
  rw [logMessage_length h]
  by_cases ht : logTemplate ps = []
  · have hz : zapMessage (logTemplate ps) [Arg.vals vs] = some (printArg .v (.vals vs)) := by simp [zapMessage, ht]
    have := printVals_length .v vs
    have hx : textLength ps = 0 := by
      clear h he hm hz
      induction ps with
      | nil => rfl
      | cons p ps ih =>
        cases p with
        | hole w => simp [logTemplate] at ht
        | text b =>
          simp only [logTemplate, List.append_eq_nil_iff] at ht
          have hb : b = [] := by
            cases b with
            | nil => rfl
            | cons c b => simp [escapePercent] at ht; split at ht <;> simp at ht
          simp [textLength, hb, ih ht.2]
    simp only [logf, hl, if_false, hz, sprintf_template, Option.bind_eq_bind, Option.bind_some, Option.some.injEq] at he
    subst he
    simp only [log] at hm
    split at hm
    · cases hm; simp [printArg, hx]; omega
    · cases hm
  · have hz : zapMessage (logTemplate ps) [Arg.vals vs] = some (logFill ps [.vals vs]) := by simp [zapMessage, ht, sprintf_template]
    simp only [logf, hl, if_false, hz, sprintf_template, Option.bind_eq_bind, Option.bind_some, Option.some.injEq] at he
    subst he
    simp only [log] at hm
    split at hm
    · cases hm; exact logFill_length ps vs
    · cases hm

theorem printVals_eq (w : Verb) (vs : List Val) : printVals w vs = [32].intercalate (vs.map (shownAs w)) := by
  induction vs with
  | nil => rfl
  | cons v vs ih =>
    have hv : printVal w v = shownAs w v := by cases w <;> cases v <;> rfl
    cases vs with
    | nil => simp [printVals, hv]
    | cons y ys => rw [printVals, ih, hv]; simp

theorem logFill_unfilled (ps : List LogPiece) : logFill ps [] = unfilled ps := by
  induction ps with
  | nil => rfl
  | cons p ps ih => cases p <;> simp [logFill, unfilled, next, ih]

theorem logFill_garbled (ps : List LogPiece) (vs : List Val) : logFill ps [.vals vs] = garbled ps vs := by
  induction ps with
  | nil => simp [logFill, garbled, finish, extras, typeName, printArg, bracketed, printVals_eq]
  | cons p ps ih =>
    cases p with
    | text b => simp [logFill, garbled, ih]
    | hole w => simp [logFill, garbled, next, logFill_unfilled, printArg, bracketed, printVals_eq]

/-- What is written instead, for every template and all arguments, fitting or not: everything in brackets in the first hole, complaints in
the others, and a complaint at the end if there is no hole; nothing if the level hides it. -/
theorem C71_written (logger : Option Level) {lvl : Level} (hl : lvl ≠ .error) (ps : List LogPiece) (vs : List Val) :
    (logf logger lvl (logTemplate ps) vs).map (·.written) =
      some (if logger.any (enabled · lvl) then some (if logTemplate ps = [] then bracketed .v vs else garbled ps vs) else none) := by
  have hz : zapMessage (logTemplate ps) [Arg.vals vs] = some (if logTemplate ps = [] then bracketed .v vs else garbled ps vs) := by
    simp only [zapMessage]
    split
    · simp [printArg, bracketed, printVals_eq]
    · rw [sprintf_template, logFill_garbled]
  simp only [logf, hl, if_false, hz, sprintf_template, Option.bind_eq_bind, Option.bind_some, Option.map_some, log]
  cases logger <;> simp

example : (logf (some .info) .warn (logTemplate [.text b!"from ", .hole .s, .text b!": ", .hole .d]) [.str b!"a", .int 1]).map (·.written) =
    some (some b!"from [a %!s(int=1)]: %!d(MISSING)") := by
  rw [C71_written _ (by decide)]; decide +kernel

theorem extras_eq (vs : List Val) : extras (vs.map .val) = [44, 32].intercalate (vs.map withKind) := by
  induction vs with
  | nil => rfl
  | cons v vs ih =>
    have hv : typeName (.val v) ++ b!"=" ++ printArg .v (.val v) = withKind v := by cases v <;> simp [typeName, printArg, printVal, withKind]
    cases vs with
    | nil => simpa [extras] using hv
    | cons y ys =>
      rw [List.map_cons, List.map_cons, extras, ← List.map_cons (f := Arg.val), ih, hv]
      simp

theorem logFill_anyhow (ps : List LogPiece) (vs : List Val) : logFill ps (vs.map .val) = filledAnyhow ps vs := by
  induction ps generalizing vs with
  | nil =>
    cases vs with
    | nil => rfl
    | cons v vs =>
      have := extras_eq (v :: vs)
      simp only [List.map_cons] at this
      simp [logFill, filledAnyhow, finish, leftOver, this]
  | cons p ps ih =>
    cases p with
    | text b => simp [logFill, filledAnyhow, ih]
    | hole w =>
      cases vs with
      | nil => exact logFill_unfilled _
      | cons v vs =>
        have hv : printVal w v = shownAs w v := by cases w <;> cases v <;> rfl
        simp [logFill, filledAnyhow, next, printArg, ih, hv]

/-- The error `Errorf` returns, for every template and all arguments, fitting or not: the holes filled in order, with complaints about values of the wrong
kind, holes without a value and values without a hole; and it is what is written, if anything is and there are arguments. -/
theorem C71_errorf_any (logger : Option Level) (ps : List LogPiece) {vs : List Val} (hv : vs ≠ []) (ht : logTemplate ps ≠ []) :
    ∃ e, logf logger .error (logTemplate ps) vs = some e ∧ e.error = some (filledAnyhow ps vs) ∧ ∀ w, e.written = some w → w = filledAnyhow ps vs := by
  have e : zapMessage (logTemplate ps) (vs.map .val) = some (filledAnyhow ps vs) := by
    rcases vs with _ | ⟨a, _ | ⟨b, vs⟩⟩
    · exact absurd rfl hv
    · simpa [zapMessage, ht] using (sprintf_template ps ([a].map .val)).trans (by rw [logFill_anyhow])
    · simpa [zapMessage, ht] using (sprintf_template ps ((a :: b :: vs).map .val)).trans (by rw [logFill_anyhow])
  refine ⟨_, by simp only [logf, if_true, e, sprintf_template, logFill_anyhow, Option.bind_eq_bind, Option.bind_some]; rfl, rfl, fun w hw => ?_⟩
  simp only [log] at hw
  split at hw
  · split at hw <;> simp_all
  · cases hw

/-- A value of the wrong kind, and two left over. -/
example : ∃ e, logf (some .info) .error (logTemplate [.text b!"line ", .hole .d]) [.str b!"x", .int 7, .str b!"y"] = some e ∧
    e.written = some b!"line %!d(string=x)%!(EXTRA int=7, string=y)" := by
  obtain ⟨e, h1, h2, h3⟩ := C71_errorf_any (some .info) [.text b!"line ", .hole .d] (vs := [.str b!"x", .int 7, .str b!"y"]) (by simp) (by simp [logTemplate])
  exact ⟨_, by rw [h1], by
    have : e.written = some (filledAnyhow [.text b!"line ", .hole .d] [.str b!"x", .int 7, .str b!"y"]) := by
      simp only [logf, Option.bind_eq_bind, Option.bind_eq_some_iff] at h1
      obtain ⟨m, -, er, -, h⟩ := h1
      cases h
      exact congrArg some (h3 m rfl)
    rw [this]; decide +kernel⟩

/-- What is written instead, with one hole: the value in brackets. -/
theorem C71_one_partial {t lvl : Level} (hl : lvl ≠ .error) (ht : t = .debug) (a b x : Bytes) :
    (logf (some t) lvl (logTemplate [.text a, .hole .s, .text b]) [.str x]).map (·.written) =
      some (some (a ++ b!"[" ++ x ++ b!"]" ++ b)) := by
  subst ht
  have hne : logTemplate [.text a, .hole .s, .text b] ≠ [] := by simp [logTemplate]
  have hz : zapMessage (logTemplate [.text a, .hole .s, .text b]) [Arg.vals [.str x]] = some (a ++ b!"[" ++ x ++ b!"]" ++ b) := by
    simp [zapMessage, hne, sprintf_template, logFill, next, printArg, printVals, printVal, finish]
  have he : enabled .debug lvl = true := by cases lvl <;> rfl
  simp only [logf, hl, if_false, hz, sprintf_template, Option.bind_eq_bind, Option.bind_some, Option.map_some, log, he, if_true]

/-- Which messages are written: in debug mode all; otherwise none of `Debug`, and of the others those at least as severe as the configured
level, an unknown level (also `DEBUG` or lower case) counting as `INFO`. -/
theorem C71_levels (debug : Bool) (c : Bytes) (lvl : Level) (msg : Bytes) :
    (log (some (getLogLevel debug c)) lvl msg).written =
      if debug = true ∨ lvl ∈ severity.drop (if c = b!"WARN" then 2 else if c = b!"ERROR" then 3 else if c = b!"FATAL" then 5 else 1) then some msg
      else none := by
  cases debug
  · by_cases h1 : c = b!"INFO"
    · subst h1; cases lvl <;> rfl
    by_cases h2 : c = b!"WARN"
    · subst h2; cases lvl <;> rfl
    by_cases h3 : c = b!"ERROR"
    · subst h3; cases lvl <;> rfl
    by_cases h4 : c = b!"FATAL"
    · subst h4; cases lvl <;> rfl
    cases lvl <;> simp [log, getLogLevel, h1, h2, h3, h4, enabled, Level.num, severity]
  · cases lvl <;> simp [log, getLogLevel, enabled, Level.num]

/-- `Panic` panics and `Fatal` exits exactly when there is a logger, also where the level hides the message; before `InitLog` they return as
if nothing had happened. The other functions always return. -/
theorem C71_ends (logger : Option Level) (lvl : Level) (msg : Bytes) :
    ((log logger lvl msg).ending = .panicked ↔ lvl = .panic ∧ logger ≠ none) ∧
    ((log logger lvl msg).ending = .exited ↔ lvl = .fatal ∧ logger ≠ none) := by
  cases logger <;> cases lvl <;> simp [log, ending]

/-- `Error` always returns an error with the message, which is the one written if anything is. -/
theorem C71_error (logger : Option Level) (msg : Bytes) :
    (log logger .error msg).error = some msg ∧ ∀ m, (log logger .error msg).written = some m → m = msg := by
  refine ⟨by simp [log], ?_⟩
  cases logger with
  | none => simp [log]
  | some t =>
    intro m h
    simp only [log] at h
    split at h <;> simp_all

/-- `ShutdownLog` works once, after `InitLog`. -/
theorem C71_shutdown (debug : Bool) (c : Bytes) :
    shutdownLog start = .panic ∧ ∃ s, shutdownLog (initLog debug c start) = .ok s ∧ shutdownLog s = .panic :=
  ⟨rfl, _, rfl, rfl⟩

/-- However often `InitLog` was called before, the last call decides what is written, and `ShutdownLog` works once. -/
theorem C71_latest (calls : List (Bool × Bytes)) (debug : Bool) (c : Bytes) (lvl : Level) (msg : Bytes) :
    (log ((calls ++ [(debug, c)]).foldl (fun s p => initLog p.1 p.2 s) start).logger lvl msg).written =
      (if debug = true ∨ lvl ∈ severity.drop (if c = b!"WARN" then 2 else if c = b!"ERROR" then 3 else if c = b!"FATAL" then 5 else 1) then some msg else none) ∧
    ∃ s, shutdownLog ((calls ++ [(debug, c)]).foldl (fun s p => initLog p.1 p.2 s) start) = .ok s ∧ shutdownLog s = .panic := by
  have hc : (calls.foldl (fun s p => initLog p.1 p.2 s) start).exitClosed = false := by
    suffices ∀ s : Sys, s.exitClosed = false → (calls.foldl (fun s p => initLog p.1 p.2 s) s).exitClosed = false from this _ rfl
    induction calls with
    | nil => exact fun _ h => h
    | cons p calls ih => exact fun s h => ih _ h
  rw [List.foldl_append]
  refine ⟨C71_levels debug c lvl msg, ?_⟩
  generalize calls.foldl (fun s p => initLog p.1 p.2 s) start = s at hc
  simp [shutdownLog, initLog, hc]

/-- A second `InitLog` shows what the first one hid. -/
example : (log ([(false, b!"FATAL"), (false, b!"INFO")].foldl (fun s p => initLog p.1 p.2 s) start).logger .info b!"m").written = some b!"m" := by decide +kernel

/-- pkg/concurrency/topic.go:101. -/
example : logf (some .info) .info b!"topic=%s, subscriber=%s" [.str b!"t", .str b!"u"] =
    some { written := some b!"topic=[t u], subscriber=%!s(MISSING)", ending := .returned, error := none } := by decide +kernel

/-- pkg/network/server.go:174, the hypotheses of `C71_false` and what is seen. -/
example : LogFits [.text b!"server is listening on ", .hole .s] [.str b!"::1"] ∧
    logf (some .info) .info (logTemplate [.text b!"server is listening on ", .hole .s]) [.str b!"::1"] =
      some { written := some b!"server is listening on [::1]", ending := .returned, error := none } := ⟨rfl, by decide +kernel⟩

/-- Without arguments `Errorf` writes a template that contains `%%` as it is, and returns it with `%`: the condition of `C71_errorf`. -/
example : logf (some .info) .error b!"100%%" [] =
    some { written := some b!"100%%", ending := .returned, error := some b!"100%" } := by decide +kernel

/-- Numbers and strings under `Errorf`, hidden by the level `FATAL`. -/
example : LogFits [.text b!"n=", .hole .d, .text b!" s=", .hole .v] [.int (-5), .str b!"x"] ∧
    logf (some .fatal) .error b!"n=%d s=%v" [.int (-5), .str b!"x"] =
      some { written := none, ending := .returned, error := some b!"n=-5 s=x" } := ⟨rfl, by decide +kernel⟩

/-- `FATAL` hides the message of `Panic`, which panics all the same. -/
example : log (some (getLogLevel false b!"FATAL")) .panic b!"m" = { written := none, ending := .panicked, error := none } := by decide +kernel

end Verif.Props
