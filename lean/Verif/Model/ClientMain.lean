import Verif.Model.Client
import Verif.Model.Pipe

/-! The loop of the command line client, cmd/client/main.go, and the server it talks to. -/

namespace Verif

namespace Client

/-- `dropCR` of Go's bufio, used by `bufio.ScanLines`: one carriage return at the end of a line is dropped. -/
def dropCR (l : Bytes) : Bytes := if l.getLast? = some 13 then l.dropLast else l

/-- `scanner.Scan()` and `scanner.Text()` (cmd/client/main.go:28-32) of a `bufio.Scanner` on the standard input: the next line and the input
after it; `none` when `Scan` reports false. The scanner's buffer grows to 64 KiB at most (`bufio.MaxScanTokenSize`), and a line that does not
fit in with its line feed makes `Scan` report false. -/
def scan (input : Bytes) : Option (Bytes × Bytes) :=
  let l := input.takeWhile (· ≠ 10)
  if input = [] then none
  else if 65536 ≤ l.length then none
  else some (dropCR l, input.drop (l.length + 1))

/-- What comes back on the connection after a request was written. -/
inductive Back where
  /-- These bytes, up to the next request. -/
  | bytes (b : Bytes)
  /-- The connection ends. -/
  | closed
  /-- Nothing comes. -/
  | silent

/-- What the user sees. -/
inductive Seen where
  /-- Printed text. -/
  | print (b : Bytes)
  /-- `Read from server meets an error!` and exit status 1 (lines 50-53). The text of the error is not modelled. -/
  | readError
  /-- `Write to server failed!` (lines 43-47). The text of the error is not modelled. -/
  | writeError
  /-- The client panics. -/
  | crash
  /-- The client waits for the server and never goes on. -/
  | waits
  /-- Not reached: the model ran out of fuel. -/
  | stuck
deriving DecidableEq

/-- cmd/client/main.go:14 -/
def prompt : Bytes := b!">>> "

/-- cmd/client/main.go:26-56, the loop of `main`; `server` says what comes back for a request. Every reply is read with a new `bufio.Reader`
(line 49): what it has buffered after the object is lost. Writing to the connection does not fail (lines 43-47); `FormatInput` has no errors
(lines 38-41; see `Client.formatInput`). Every round but the last takes at least one byte of input, so the fuel of `run` suffices. -/
def mainLoop {σ : Type} (server : σ → Bytes → σ × Back) : Nat → σ → Bytes → List Seen × σ
  | 0, w, _ => ([.stuck], w)
  | f + 1, w, input =>
    match scan input with
    | none => ([.print prompt], w)
    | some (s, input') =>
      if s = b!"QUIT" ∨ s = b!"quit" then ([.print prompt], w)
      else
        match formatInput s with
        | .panic => ([.print prompt, .crash], w)
        | .diverge => ([.print prompt, .stuck], w)
        | .ok req =>
          match server w req with
          | (w', .closed) => ([.print prompt, .readError], w')
          | (w', .silent) => ([.print prompt, .waits], w')
          | (w', .bytes b) =>
            match parse b with
            | .ok obj _ =>
              let (outs, w'') := mainLoop server f w' input'
              (.print prompt :: .print (formatOutput obj ++ [10]) :: outs, w'')
            | .eof => ([.print prompt, .waits], w')
            | .bad => ([.print prompt, .readError], w')
            | .panic => ([.print prompt, .crash], w')
            | .stuck => ([.print prompt, .stuck], w')

/-- cmd/client/main.go:16-56 `main` once the connection is there. -/
def run {σ : Type} (server : σ → Bytes → σ × Back) (w : σ) (input : Bytes) : List Seen × σ := mainLoop server (input.length + 1) w input

end Client

/-- The server as one connection sees it when nobody else is connected: the number of requests so far, and the database while the process lives. -/
structure Served where
  count : Nat
  db : Option State

/-- What the server sends back for a request: reading from the connection (pkg/network/conn.go:76-93), `parseRequest` and `handleRequest`
(pkg/db/engine.go:81-157), writing the reply (pkg/network/server.go, pkg/db/engine.go:181-190; `Pipe` has the way through the event bus, and
C46 what can go wrong there: replies can be lost. Here they are not). A panic ends the process and with it the connection; to a request that is
malformed or not complete nothing comes back (pkg/network/server.go:196-198 stops reading without closing; that the connection expires later is left to
`Expiry`); a request that is not an array is not answered. `envs n` are the surroundings of request `n`. -/
def Served.answer (envs : Nat → Env) (s : Served) (req : Bytes) : Served × Client.Back :=
  match s.db with
  | none => (s, .closed)
  | some st =>
    match parse req with
    | .ok o _ =>
      match Pipe.asArray o with
      | none => (s, .silent)
      | some objs =>
        match handle (envs s.count) st objs with
        | .ok (st', r) => ({ count := s.count + 1, db := some st' }, .bytes r.encode)
        | .panic => ({ count := s.count + 1, db := none }, .closed)
        | .diverge => ({ s with count := s.count + 1 }, .silent)
    | .eof => (s, .silent)
    | .bad => (s, .silent)
    | .panic => ({ s with db := none }, .closed)
    | .stuck => (s, .silent)

end Verif
