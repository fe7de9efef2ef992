import Verif.Model.Logging

/-!
What a log message should say, without the machinery of `fmt`: a template is a sequence of texts and holes, a message is the template with
the holes filled in order.
-/

namespace Verif.Spec

open Verif

/-- A piece of a template. -/
inductive LogPiece where
  | text (b : Bytes)
  | hole (w : Logging.Verb)

/-- A text in a template: `%` is written `%%`. -/
def escapePercent : Bytes → Bytes
  | [] => []
  | c :: t => if c = 37 then 37 :: 37 :: escapePercent t else c :: escapePercent t

/-- The template as written in the source. -/
def logTemplate : List LogPiece → Bytes
  | [] => []
  | .text b :: ps => escapePercent b ++ logTemplate ps
  | .hole w :: ps => 37 :: w.letter :: logTemplate ps

/-- How a value is shown to a reader: a string as it is, a number in decimal. -/
def shown : Logging.Val → Bytes
  | .str b => b
  | .int n => fmtInt n

/-- Each hole has an argument of its kind and each argument a hole: `%s` takes a string, `%d` a number, `%v` either. -/
def LogFits : List LogPiece → List Logging.Val → Prop
  | [], vs => vs = []
  | .text _ :: ps, vs => LogFits ps vs
  | .hole .s :: ps, .str _ :: vs => LogFits ps vs
  | .hole .d :: ps, .int _ :: vs => LogFits ps vs
  | .hole .v :: ps, _ :: vs => LogFits ps vs
  | .hole _ :: _, _ => False

/-- The message: the holes filled in order. -/
def logMessage : List LogPiece → List Logging.Val → Bytes
  | [], _ => []
  | .text b :: ps, vs => b ++ logMessage ps vs
  | .hole _ :: ps, v :: vs => shown v ++ logMessage ps vs
  | .hole _ :: ps, [] => logMessage ps []

/-- How a value is shown in a hole of either kind: with a complaint where a number stands for a string or the other way round. -/
def shownAs : Logging.Verb → Logging.Val → Bytes
  | .d, .str b => b!"%!d(string=" ++ b ++ b!")"
  | .s, .int n => b!"%!s(int=" ++ fmtInt n ++ b!")"
  | _, v => shown v

/-- All values in brackets. -/
def bracketed (w : Logging.Verb) (vs : List Logging.Val) : Bytes := b!"[" ++ [32].intercalate (vs.map (shownAs w)) ++ b!"]"

/-- A template nothing is left for. -/
def unfilled : List LogPiece → Bytes
  | [] => []
  | .text b :: ps => b ++ unfilled ps
  | .hole w :: ps => b!"%!" ++ [w.letter] ++ b!"(MISSING)" ++ unfilled ps

/-- What becomes of a message whose values are all put into the first hole. -/
def garbled : List LogPiece → List Logging.Val → Bytes
  | [], vs => b!"%!(EXTRA []interface {}=" ++ bracketed .v vs ++ b!")"
  | .text b :: ps, vs => b ++ garbled ps vs
  | .hole w :: ps, vs => bracketed w vs ++ unfilled ps

/-- A value with its kind. -/
def withKind : Logging.Val → Bytes
  | .str b => b!"string=" ++ b
  | .int n => b!"int=" ++ fmtInt n

/-- The complaint about values no hole is left for. -/
def leftOver (vs : List Logging.Val) : Bytes := if vs = [] then [] else b!"%!(EXTRA " ++ [44, 32].intercalate (vs.map withKind) ++ b!")"

/-- The holes filled in order whether the values fit or not, with complaints where they do not. -/
def filledAnyhow : List LogPiece → List Logging.Val → Bytes
  | [], vs => leftOver vs
  | .text b :: ps, vs => b ++ filledAnyhow ps vs
  | .hole w :: ps, v :: vs => shownAs w v ++ filledAnyhow ps vs
  | .hole w :: ps, [] => unfilled (.hole w :: ps)

/-- Severity, least first. -/
def severity : List Logging.Level := [.debug, .info, .warn, .error, .panic, .fatal]

end Verif.Spec
