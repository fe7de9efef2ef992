import Verif.Model.Proto
import Verif.Model.DB

/-!
The log: pkg/log/log.go, pkg/log/persistent.go, `writeLog`/`BuildFromLog` of pkg/db/engine.go, the transfer of pkg/replication, and
`fromFile`/`fromMaster` of pkg/network/server.go.
-/

namespace Verif

/-- The values pkg/log/log.go:32-34 takes from its surroundings: a new uuid, the clock and the own address. -/
structure Stamp where
  id : Bytes
  time : Int
  host : Bytes

/-- pkg/log/log.go:29-47 `NewLog`. Its only caller passes at least one object (pkg/db/engine.go:107-125), so `objects[1:]` does not panic. -/
def newLog (s : Stamp) (name : Bytes) (index : Int) (objs : List Resp) : VLog :=
  { id := s.id, time := s.time, host := s.host, name := name, index := Proto.wrap32 index, args := objs.tail.map Resp.encode
    raw := (Resp.array objs).encode }

/-- `binary.LittleEndian.PutUint32` of `uint32(n)` (pkg/log/log.go:71, pkg/replication/master.go:154). -/
def le32 (n : Nat) : Bytes :=
  [UInt8.ofNat (n % 256), UInt8.ofNat (n / 256 % 256), UInt8.ofNat (n / 65536 % 256), UInt8.ofNat (n / 16777216 % 256)]

/-- `binary.LittleEndian.Uint32` (pkg/log/log.go:127, pkg/replication/replica.go:49). -/
def unle32 : Bytes → Nat
  | a :: b :: c :: d :: _ => a.toNat + 256 * b.toNat + 65536 * c.toNat + 16777216 * d.toNat
  | _ => 0

/-- pkg/log/log.go:56-77 `PackLog`; `none` is an error. -/
def packLog (v : VLog) : Option Bytes :=
  match Proto.marshal v with
  | none => none
  | some message => if message.length = 0 then none else some (le32 message.length ++ message)

/-- pkg/util/util.go:103-116 `ReadExactBytes` on a stream holding `s`; `none` is the error (`io.EOF`), which comes with a nil slice. -/
def readExact (count : Nat) (s : Bytes) : Option (Bytes × Bytes) :=
  if count ≤ s.length then some (s.take count, s.drop count) else none

/-- Results of `readLog`. -/
inductive LogRead where
  | record (v : VLog) (rest : Bytes)
  | eof
  | unexpectedEof
  | invalid (rest : Bytes)
deriving DecidableEq, Repr

/-- pkg/log/log.go:116-145 `readLog`. On an incomplete length `ReadExactBytes` returns a nil slice, so line 119 always finds length 0 and the
result is a plain end of file. -/
def readLog (s : Bytes) : LogRead :=
  match readExact 4 s with
  | none => .eof
  | some (lengthByte, r) =>
    match readExact (unle32 lengthByte) r with
    | none => .unexpectedEof
    | some (logByte, r') =>
      match Proto.unmarshal logByte with
      | none => .invalid r'
      | some v => .record v r'

/-- The loop of pkg/log/log.go:91-107; the flag tells whether an error is returned along with the records. -/
def parseLogF : Nat → Bytes → List VLog × Bool
  | 0, _ => ([], true)
  | f + 1, s =>
    match readLog s with
    | .eof => ([], false)
    | .unexpectedEof => ([], true)
    | .invalid r => parseLogF f r
    | .record v r => let (vs, e) := parseLogF f r; (v :: vs, e)

/-- pkg/log/log.go:84-110 `ParseLog`. Every iteration takes at least four bytes, so the fuel suffices. -/
def parseLog (s : Bytes) : List VLog × Bool := parseLogF (s.length + 1) s

/-! ## The buffered file -/

/-- pkg/log/persistent.go:16-20 `PersistentFile` around a `bufio.Writer`: the file contents, the buffered bytes, the sticky error of the
writer, and how many write calls the file has seen. All methods hold the mutex, so they are atomic with respect to each other. -/
structure PFile where
  disk : Bytes
  buf : Bytes
  failed : Bool
  calls : Nat

namespace PFile

/-- `defaultBufSize` of package bufio, used by `bufio.NewWriter` (pkg/log/persistent.go:27). -/
def bufSize : Nat := 4096

/-- pkg/log/persistent.go:23-29 `NewPersistentFile` on a file with contents `disk`, opened for appending. -/
def new (disk : Bytes) : PFile := { disk := disk, buf := [], failed := false, calls := 0 }

/-- A write call to the operating system. The `i`-th call takes at most `ω i` bytes; taking fewer than offered is an error. -/
def sysWrite (ω : Nat → Nat) (p : PFile) (b : Bytes) : PFile × Nat :=
  let n := min (ω p.calls) b.length
  ({ p with disk := p.disk ++ b.take n, calls := p.calls + 1, failed := decide (n < b.length) }, n)

/-- `bufio.Writer.Flush` behind pkg/log/persistent.go:45-50. -/
def flush (ω : Nat → Nat) (p : PFile) : PFile :=
  if p.failed then p
  else if p.buf = [] then p
  else
    let (p1, n) := sysWrite ω p p.buf
    { p1 with buf := p.buf.drop n }

/-- The loop of `bufio.Writer.Write`: bytes that do not fit are written through. The result includes the number of bytes taken. Once the
buffer has been flushed the rest goes out in one direct write, so three rounds suffice. -/
def writeLoop (ω : Nat → Nat) : Nat → PFile → Bytes → Nat → PFile × Bytes × Nat
  | 0, p, b, nn => (p, b, nn)
  | f + 1, p, b, nn =>
    if bufSize - p.buf.length < b.length ∧ p.failed = false then
      if p.buf = [] then
        let (p1, n) := sysWrite ω p b
        writeLoop ω f p1 (b.drop n) (nn + n)
      else
        let n := bufSize - p.buf.length
        writeLoop ω f (flush ω { p with buf := p.buf ++ b.take n }) (b.drop n) (nn + n)
    else (p, b, nn)

/-- `bufio.Writer.Write` behind pkg/log/persistent.go:66-71: the new state and the number of bytes taken (`nn`). -/
def write (ω : Nat → Nat) (p : PFile) (b : Bytes) : PFile × Nat :=
  let (p1, b1, nn) := writeLoop ω 3 p b 0
  if p1.failed then (p1, nn) else ({ p1 with buf := p1.buf ++ b1 }, nn + b1.length)

/-- `bufio.Writer.WriteByte` behind pkg/log/persistent.go:73-78. -/
def writeByte (ω : Nat → Nat) (p : PFile) (c : UInt8) : PFile × Nat :=
  if p.failed then (p, 0)
  else
    let p1 := if bufSize - p.buf.length ≤ 0 then flush ω p else p
    if p1.failed then (p1, 0) else ({ p1 with buf := p1.buf ++ [c] }, 1)

/-- The loop of `bufio.Writer.WriteString` (Go 1.14, the version of go.mod), which never writes through. -/
def writeStringLoop (ω : Nat → Nat) : Nat → PFile → Bytes → Nat → PFile × Bytes × Nat
  | 0, p, b, nn => (p, b, nn)
  | f + 1, p, b, nn =>
    if bufSize - p.buf.length < b.length ∧ p.failed = false then
      let n := bufSize - p.buf.length
      writeStringLoop ω f (flush ω { p with buf := p.buf ++ b.take n }) (b.drop n) (nn + n)
    else (p, b, nn)

/-- `bufio.Writer.WriteString` behind pkg/log/persistent.go:80-83. The first round may take nothing, every later one a full buffer. -/
def writeString (ω : Nat → Nat) (p : PFile) (b : Bytes) : PFile × Nat :=
  let (p1, b1, nn) := writeStringLoop ω (b.length + 2) p b 0
  if p1.failed then (p1, nn) else ({ p1 with buf := p1.buf ++ b1 }, nn + b1.length)

/-- `bufio.Writer.Size` behind pkg/log/persistent.go:57-62. -/
def size (_ : PFile) : Nat := bufSize

/-- `bufio.Writer.Buffered` behind pkg/log/persistent.go:38-43. -/
def buffered (p : PFile) : Nat := p.buf.length

/-- `bufio.Writer.Available` behind pkg/log/persistent.go:31-36: the length of the slice minus the bytes in it. -/
def available (p : PFile) : Nat := bufSize - p.buf.length

end PFile

/-! ## Replay -/

/-- pkg/db/engine.go:256-268 `convertArguments`: texts that cannot be read are left out. -/
def convertArguments : List Bytes → Outcome (List Resp)
  | [] => .ok []
  | item :: rest =>
    match parse item with
    | .ok o _ => do
      let os ← convertArguments rest
      .ok (o :: os)
    | .panic => .panic
    | .stuck => .diverge
    | _ => convertArguments rest

/-- The databases of an engine, by index (pkg/db/engine.go:75-79 `getOrCreateDB`; a database not created yet is empty). -/
abbrev DBs := Int → State

/-- `db.ExecuteCommand` on the database `i`. -/
def DBs.run (dbs : DBs) (env : Env) (i : Int) (c : Command) : Outcome DBs :=
  match execute env (dbs i) c with
  | .ok (st', _) => .ok (fun j => if j = i then st' else dbs j)
  | .panic => .panic
  | .diverge => .diverge

/-- pkg/db/engine.go:228-254 `BuildFromLog`; `envs` are the surroundings of the replayed commands. -/
def buildFromLog (dbs : DBs) (envs : Nat → Env) : List VLog → Outcome DBs
  | [] => .ok dbs
  | vl :: vls => do
    let args ← convertArguments vl.args
    match newCommand vl.name args with
    | .error _ => buildFromLog dbs (fun i => envs (i + 1)) vls
    | .ok c => do
      let dbs' ← dbs.run (envs 0) vl.index c
      buildFromLog dbs' (fun i => envs (i + 1)) vls

/-- pkg/network/server.go:337-356 `fromFile`, on a file with contents `file`: the records that could be read are replayed, also when
there was an error. -/
def fromFile (dbs : DBs) (envs : Nat → Env) (file : Bytes) : Outcome DBs := buildFromLog dbs envs (parseLog file).1

/-! ## Writing the log -/

/-- The bytes pkg/db/engine.go:205-225 `writeLog` hands to the file for one request; nothing if packing fails. -/
def logBytes (s : Stamp) (name : Bytes) (objs : List Resp) : Bytes := (packLog (newLog s name 1 objs)).getD []

/-- What the request contributes to the log file (pkg/db/engine.go:111-126): only commands of modify type are logged. -/
def requestLog (s : Stamp) (objs : List Resp) : Bytes :=
  if isLogged objs then logBytes s ((objs.head?.bind text).getD []) objs else []

/-- A request with the surroundings it meets: iteration orders, and the id, time and host its log record gets (pkg/log/log.go:29-47). -/
structure Req where
  stamp : Stamp
  env : Env
  objs : List Resp

/-- The engine and its log writers. `current` is the request being handled, `pending` are the requests whose goroutine `writeLog`
(pkg/db/engine.go:125) has been started and has not reached the file yet. -/
structure Engine where
  todo : List Req
  current : Option Req
  db : State
  replies : List Resp
  pending : List Req
  file : PFile

/-- The effect of one writer goroutine, pkg/db/engine.go:205-225: pack and, if that succeeds, write. The write holds the file's mutex
(pkg/log/persistent.go:66-71), so it is one step. -/
def writeRecord (ω : Nat → Nat) (p : PFile) (q : Req) : PFile :=
  match packLog (newLog q.stamp ((q.objs.head?.bind text).getD []) 1 q.objs) with
  | some b => (p.write ω b).1
  | none => p

/-- The steps of engine and writers. A request that panics has no step: the process ends. -/
inductive Engine.Step (ω : Nat → Nat) : Engine → Engine → Prop where
  /-- pkg/db/engine.go:106-126: the next request is parsed and, if of modify type, a writer is started. -/
  | receive {e : Engine} {q : Req} {rest : List Req} : e.todo = q :: rest → e.current = none →
      Step ω e { e with todo := rest, current := some q, pending := if isLogged q.objs then e.pending ++ [q] else e.pending }
  /-- pkg/db/engine.go:128-136, 186-194: the command is executed and answered. -/
  | execute {e : Engine} {q : Req} {db : State} {r : Resp} : e.current = some q → handle q.env e.db q.objs = .ok (db, r) →
      Step ω e { e with current := none, db := db, replies := e.replies ++ [r] }
  /-- pkg/db/engine.go:205-225: any one of the started writers gets to the file. -/
  | write {e : Engine} {before after : List Req} {q : Req} : e.pending = before ++ q :: after →
      Step ω e { e with pending := before ++ after, file := writeRecord ω e.file q }
  /-- pkg/replication/master.go:119: a replica is being served and the buffer is written out, under the same mutex
  (pkg/log/persistent.go:45-50). -/
  | flush {e : Engine} : Step ω e { e with file := e.file.flush ω }

/-- An engine with an empty database, on a log file with contents `d`, about to receive `h`. -/
def Engine.start (d : Bytes) (h : List Req) : Engine :=
  { todo := h, current := none, db := State.empty, replies := [], pending := [], file := PFile.new d }

/-- The same with the contents `st` in database 1, which pkg/network/server.go:337-356 `fromFile` has put there before the first request. The file
is opened for appending (line 338). -/
def Engine.startOn (d : Bytes) (st : State) (h : List Req) : Engine := { Engine.start d h with db := st }

/-! ## Transfer to a replica -/

/-- What pkg/replication/master.go:94-177 `handleConn` sends when nothing fails: the copied file after `uint32` of its size. -/
def transfer (file : Bytes) : Bytes := le32 file.length ++ file

/-- Errors of `Receive`. -/
inductive RecvErr where
  | incomplete
  | parse
deriving DecidableEq, Repr

/-- pkg/replication/replica.go:39-65 `Receive` on a connection that delivers `s` and ends: the records, and an error if there is one. -/
def receive (s : Bytes) : List VLog × Option RecvErr :=
  match readExact 4 s with
  | none => ([], some .incomplete)
  | some (lengthBytes, r) =>
    let length := unle32 lengthBytes
    if length = 0 then ([], none)
    else match readExact length r with
      | none => ([], some .incomplete)
      | some (message, _) =>
        match parseLog message with
        | (vs, false) => (vs, none)
        | (vs, true) => (vs, some .parse)

/-- pkg/network/server.go:317-335 `fromMaster` once connected: replayed only when there was no error at all. -/
def fromMaster (dbs : DBs) (envs : Nat → Env) (s : Bytes) : Outcome DBs :=
  match receive s with
  | (_, some _) => .ok dbs
  | (vs, none) => buildFromLog dbs envs vs

end Verif
