import Verif.Model.Num

/-!
The log of the program itself (not of the database): pkg/common/logging.go. The parts of `fmt.Sprintf` and of zap it calls are modelled as
far as the templates of the program use them.
-/

namespace Verif

namespace Logging

/-- A string or an `int` passed to a log function. Other types are left out: the calls in pkg/ pass strings and ints, errors (printed as the
string `Error()` under the verbs `%s` and `%v`) and one byte slice (pkg/db/engine.go:220). -/
inductive Val where
  | str (b : Bytes)
  | int (n : Int)

/-- An argument of `Sprintf`: a value, or a whole `[]interface{}` as one argument. -/
inductive Arg where
  | val (v : Val)
  | vals (vs : List Val)

/-- The verbs of the templates in pkg/: `%s`, `%d`, `%v` (and `%+v`, which is the same on strings and ints). -/
inductive Verb where
  | s | d | v

/-- The letter of a verb. -/
def Verb.letter : Verb → UInt8
  | .s => 115
  | .d => 100
  | .v => 118

/-- `fmt`: one value under a verb, with the complaint `%!d(string=x)` about a verb that does not fit. -/
def printVal : Verb → Val → Bytes
  | .s, .str b | .v, .str b => b
  | .d, .int n | .v, .int n => fmtInt n
  | .d, .str b => b!"%!d(string=" ++ b ++ b!")"
  | .s, .int n => b!"%!s(int=" ++ fmtInt n ++ b!")"

/-- `fmt`: the elements of a slice, with a space between them. -/
def printVals (w : Verb) : List Val → Bytes
  | [] => []
  | [x] => printVal w x
  | x :: y :: xs => printVal w x ++ b!" " ++ printVals w (y :: xs)

/-- `fmt`: one argument. -/
def printArg (w : Verb) : Arg → Bytes
  | .val x => printVal w x
  | .vals xs => b!"[" ++ printVals w xs ++ b!"]"

/-- `fmt`: the name of the type of an argument. -/
def typeName : Arg → Bytes
  | .val (.str _) => b!"string"
  | .val (.int _) => b!"int"
  | .vals _ => b!"[]interface {}"

/-- `fmt`: the arguments nobody asked for. -/
def extras : List Arg → Bytes
  | [] => []
  | [a] => typeName a ++ b!"=" ++ printArg .v a
  | a :: b :: as => typeName a ++ b!"=" ++ printArg .v a ++ b!", " ++ extras (b :: as)

/-- `fmt`: the end of the template. -/
def finish : List Arg → Bytes
  | [] => []
  | a :: as => b!"%!(EXTRA " ++ extras (a :: as) ++ b!")"

/-- `fmt`: the next argument under a verb. -/
def next (w : Verb) : List Arg → Bytes × List Arg
  | [] => (b!"%!" ++ [w.letter] ++ b!"(MISSING)", [])
  | a :: as => (printArg w a, as)

/-- `fmt.Sprintf`. `none`: the template uses a directive outside the model (another verb, a flag other than that of `%+v`, a width). -/
def sprintf : Bytes → List Arg → Option Bytes
  | [], as => some (finish as)
  | [37], as => some (b!"%!(NOVERB)" ++ finish as)
  | 37 :: 37 :: t, as => (sprintf t as).map (37 :: ·)
  | 37 :: 115 :: t, as => (sprintf t (next .s as).2).map ((next .s as).1 ++ ·)
  | 37 :: 100 :: t, as => (sprintf t (next .d as).2).map ((next .d as).1 ++ ·)
  | 37 :: 118 :: t, as => (sprintf t (next .v as).2).map ((next .v as).1 ++ ·)
  | 37 :: 43 :: 118 :: t, as => (sprintf t (next .v as).2).map ((next .v as).1 ++ ·)
  | 37 :: _ :: _, _ => none
  | c :: t, as => (sprintf t as).map (c :: ·)

/-- zap's `SugaredLogger` forms the message: the template itself if there are no arguments, all arguments printed if there is no template. Of
`fmt.Sprint` only the case of a single argument is modelled (the only one pkg/common/logging.go leads to, apart from `Errorf("", x, y)`). -/
def zapMessage (template : Bytes) (as : List Arg) : Option Bytes :=
  match as with
  | [] => some template
  | [a] => if template = [] then some (printArg .v a) else sprintf template [a]
  | a :: b :: as => if template = [] then none else sprintf template (a :: b :: as)

/-- zapcore's levels. `DPanicLevel` (3) is not used by the program. -/
inductive Level where
  | debug | info | warn | error | panic | fatal
deriving DecidableEq

/-- The numbers zapcore gives to its levels. -/
def Level.num : Level → Int
  | .debug => -1
  | .info => 0
  | .warn => 1
  | .error => 2
  | .panic => 4
  | .fatal => 5

/-- pkg/common/logging.go:50-67, the level chosen from `Config.LogLevel`. -/
def getLogLevel (debugMode : Bool) (c : Bytes) : Level :=
  if debugMode then .debug
  else if c = b!"INFO" then .info
  else if c = b!"WARN" then .warn
  else if c = b!"ERROR" then .error
  else if c = b!"FATAL" then .fatal
  else .info

/-- pkg/common/logging.go:69-71, the function that is returned. -/
def enabled (threshold lvl : Level) : Bool := decide (threshold.num ≤ lvl.num)

/-- How a call of a log function ends. -/
inductive End where
  | returned
  | panicked
  | exited
deriving DecidableEq

/-- What a call does: the message written to the log file, how it ends, and the text of the error it returns (`Error` and `Errorf` only). -/
structure Effect where
  written : Option Bytes
  ending : End
  error : Option Bytes
deriving DecidableEq

/-- zap: `Panic` panics and `Fatal` exits also when the level is not enabled. -/
def ending : Level → End
  | .panic => .panicked
  | .fatal => .exited
  | _ => .returned

/-- pkg/common/logging.go:92-96, 106-110, 120-124, 134-140, 153-157 and 167-172, the functions without a template. `logger` is the threshold
of the logger, `none` before `InitLog`. The copy of `Fatal` on the standard error is left out. -/
def log (logger : Option Level) (lvl : Level) (msg : Bytes) : Effect :=
  { written := match logger with
      | some t => if enabled t lvl then some msg else none
      | none => none
    ending := match logger with
      | some _ => ending lvl
      | none => .returned
    error := if lvl = .error then some msg else none }

/-- pkg/common/logging.go:99-103, 113-117, 127-131, 143-149, 160-164 and 175-180, the functions with a template. All but `Errorf` pass `a`
and not `a...`: the slice of all arguments is one argument. `none`: outside the model, see `sprintf`. The text of `fmt.Errorf` is that of
`Sprintf`, as no verb in the model is `%w`. -/
def logf (logger : Option Level) (lvl : Level) (template : Bytes) (a : List Val) : Option Effect := do
  let passed := if lvl = .error then a.map .val else [.vals a]
  let msg ← zapMessage template passed
  let err ← sprintf template (a.map .val)
  some { log logger lvl msg with error := if lvl = .error then some err else none }

/-- The state `ShutdownLog` looks at. -/
structure Sys where
  logger : Option Level
  exitClosed : Bool

/-- The variables at the start, pkg/common/logging.go:14-19. -/
def start : Sys := { logger := none, exitClosed := false }

/-- pkg/common/logging.go:22-32, when the file can be opened (otherwise it panics, lines 34-41). -/
def initLog (debugMode : Bool) (c : Bytes) (s : Sys) : Sys := { s with logger := some (getLogLevel debugMode c) }

/-- pkg/common/logging.go:75-78: closing a closed channel panics, and so does `Sync` without a logger, after the channel is closed. -/
def shutdownLog (s : Sys) : Outcome Sys :=
  if s.exitClosed then .panic
  else match s.logger with
    | none => .panic
    | some _ => .ok { s with exitClosed := true }

end Logging

end Verif
