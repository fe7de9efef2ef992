# Formal model of lxdlam/vertex — design

Prover: Lean 4.33 (`/verif/lean`), Mathlib imported module by module.

* `Verif/Model/*`  – the Go code, function by function; each definition cites `/repo` file and lines and states its simplifications.
* `Verif/Spec/*`   – small independent specifications (pure lists, finite maps and sets, grammars, relations on executions).
* `Verif/Lemmas/*` – helper lemmas about the model.
* `Verif/Props/*`  – the property theorems (one section per property id, named `Cnn_…`), each with an `example` that meets its hypotheses.
* `properties.jsonl` – the properties in English; `MANIFEST.json` – property → theorems; `seeded/LOG.jsonl` – mutation tests.

A property that is false of the code keeps its full statement in `properties.jsonl`. The Lean side then has the negation on a concrete
witness (`_false`, `_counterexample` …), where possible an exact characterisation of the failing cases, and `_partial` theorems whose comment
says what is missing. MANIFEST.json marks it `partial`.

## Modelling conventions

* Go `string`/`[]byte` are `List UInt8`. Lengths and sizes are unbounded integers (a Go slice cannot exceed 2^63-1 elements); 64-bit
  wraparound is modelled wherever user-controlled integers are computed with (INCR/DECR, `-count`, announced RESP lengths), 32-bit
  wraparound in the log and transfer length fields and in the delivery counter of `Publish`.
* A Go call can return, panic or (fuel exhausted) diverge: `Outcome α = ok a | panic | diverge`. Every index out of range, nil dereference and
  close-of-closed-channel that the code can hit is an explicit `panic` branch. Error returns are ordinary values.
* Go maps are association lists with unique keys (uniqueness is a proved invariant). Map iteration order is an oracle: theorems quantify over
  every oracle that returns a permutation (`IterOrder.Fair`).
* The linked list and the skip list are modelled at pointer level (heap of nodes with `next`/`prev` addresses and the sentinels; the text of
  the list sentinels is `dummy string` as in the code).
* Loops with no structural bound run on fuel, and the fuel is proved sufficient (no theorem is true because fuel ran out).
* Goroutines, locks and channels are labelled transition systems (`Spec/LTS.lean`: `Exec`, `Reach`, `After`), one step per atomic action.
  Safety theorems are invariants over all reachable states, proved by induction on executions. Progress theorems say that in every reachable
  state of a certain kind a step is possible, or bound the number of steps. Negative results are concrete reachable executions.

## Trusted base

* Lean's kernel, and for each theorem at most `propext`, `Classical.choice`, `Quot.sound` (checked by `#print axioms`; the gate
  re-audits it). No own axioms, no `sorry`, no `native_decide`, no `bv_decide`.
* The hand translation Go → Lean (the models). It is not extracted mechanically; each definition cites its source lines.
  `Checks/GoTests.lean` runs the expected values of the repository's own unit tests (those without randomness or timing) on the models.
* Modelled as specified by Go's documentation, not from source: `strconv.ParseInt/FormatInt/Quote`, the table of printable code points
  above 0xFF (a parameter), `%+v` of the command structs (addresses are arbitrary numbers), `strings.ToLower` (ASCII plus the two
  non-ASCII code points that lower to ASCII), `strings.TrimSpace`-like helpers used by the client, `bufio` reader (a byte list ending in EOF)
  and `bufio.Writer`, `encoding/binary`, `utf8.ValidString`, `sync.Mutex/RWMutex/Once/Map`, channels and `select`, timers, maps, the protobuf
  wire format of `log.proto` as written and read by the generated code, `fnv.New64a`.
* Assumptions made where the code depends on the environment:
  * UUIDs are new (never repeated). Wall-clock times and IP addresses are arbitrary values.
  * Whether a `Send` with a timeout succeeds or expires while a receiver is slow is nondeterministic; both are possible at any time.
  * `RWMutex` writer preference is left out: any waiting goroutine may get the lock when it is free. This only adds executions.
  * `sync.Map.Range` follows its documented contract only (no snapshot).
  * In `distributeEvent` (pkg/concurrency/topic.go) reading the `closedKeys` slice races with the collector's last append; the read is taken
    as atomic. The race on the plain map of connections in pkg/replication/master.go is modelled as a possible runtime kill, in detail in C96.
  * `RemoveTopic` inside `Stop` is one step (its lock is never held while waiting for anything else).
  * In the sorted set the two float zeros are identified, finite floats are their exact rational values, and the rounding of a sum is a
    parameter of the theorems.
* Not modelled: the parsing of configuration files and flags (`Parse` of `pkg/common/config.go`, `cmd/server/internal/flags.go`; the server calls
  neither), the TCP stack beyond byte streams that may end, block or fail, memory exhaustion (C74 bounds memory and stack of one request),
  dialling in `cmd/client/main.go`, `pkg/util/uuid.go`, `util.GetIP`, tests and benchmarks. Getters that return one field (`Name`, `Key`,
  `Type`, …) are part of the tables and records of the model rather than definitions of their own.

## Properties

For each property: what is modelled, and how it is proved. Theorem names are in MANIFEST.json.

### RESP protocol (`Model/Resp.lean`; `pkg/protocol/resp.go`, `reader.go`, byte for byte)

* **C01 round trip** – writer and reader; mutual structural induction on nested objects, with the exact condition on simple strings and errors
  (no CRLF, no two LFs in a row) as an iff, and prefix-freeness of the encodings.
* **C02 pipelining** – induction on the list of objects from C01.
* **C03 locality and truncation** – the reader with more input after what it consumed; induction on the parser's fuel; every proper prefix gives EOF.
* **C04 re-encoding** – whatever the reader accepts is clean in the sense of C01 or read back identically; induction on the parser.
* **C05 no panic** – false: a bulk length of -2 makes a negative slice. `C05_panic_iff` characterises the streams that panic.
* **C06 termination and progress** – fuel equal to the stream length plus one suffices; a successful read consumes at least three bytes.
* **C62 wire format** (`Spec/Wire.lean`) – two inductive grammars, the documented protocol (`Wire`) and what the reader takes (`Taken`); `encode` is the
  former, `parse` decides exactly the latter (strong induction on the length of the stream).
* **C55 replies are framed** (`Spec/Reply.lean`) – all replies of `handleRequest`/`handleError` composed with writer and reader, the texts of `%+v` of a
  command and of `strconv.NumError` included (`Model/DB.lean` `dump`, `Model/Strconv.lean`). False for requests whose first element is not a string
  (the connection is then out of step, `C55_out_of_step`), for a bad step of INCRBY/DECRBY with a line break in the key, and for pushes onto the list
  with the empty name with a line break in a value: `C55_exact_partial` is an equivalence, `C55_explained` says the whole text of internal errors.
* **C76 host** (`Model/Host.lean`) – what the operating system says about the interfaces is a parameter; the answer is characterised by "first
  interface not passed, first external address", and failures on the way.
* **C74 cost of a request** (`Model/Cost.lean`) – the reader on a stack of limited room, and the text each object keeps. The room needed is exactly the
  nesting (`C74_levels`, induction on the grammar of C62), at most one call per four bytes; four bytes per call exceed any fixed stack
  (`C74_overflow`), which kills a Go program. Memory is linear for each depth but quadratic over all requests (`C74_nested`, `C74_false`).

### Numbers, strings, utilities (`Model/Num.lean`, `Str.lean`, `Util.lean`)

* **C07 integer parsing** – `ParseInt(s,10,64)` and `%d` against a grammar of signed numerals; digit-fold induction.
* **C48 LexicalCompare** – exact value by common prefix; false when exactly one string is empty (returns 0).
* **C49 Index/Slice** – case analysis over all integers against a declarative window.
* **C50 Pipeline** – induction over the handlers, handlers arbitrary functions.
* **C51 string equality** – invariant that cached size, hash, bytes and integer view agree with the data; equality with hash collisions; the reply objects
  made of a string (`Model/StrObj.lean`) carry its bytes or its number (`C51_bulk`, `C51_simple`, `C51_int`).

### Commands through the whole request path (`Model/Command.lean`, `DB.lean`, containers)

`handleRequest` → `NewCommand` → `ParseArguments` → `resolveName`/`SetAccessObjects` → `Execute` → `Result`, for all 43 command names. One refinement
theorem (`handle_refines`) relates every request in every reachable state to the abstract step of `Spec/DB.lean`; the properties below are
consequences stated on requests, replies and abstract state.

* **C08 INCR/DECR**, **C09 GET/SET**, **C10 APPEND/STRLEN**, **C11 GETRANGE**, **C12 MSET/MGET/EXISTS** – refinement to `Key → Option Bytes`; histories by
  induction (C08 accumulates, C09 between SET and GET, C12 MSET as a history of SETs).
* **C13 list as sequence** – pointer-level list, representation invariant `Rep` (sentinels, forward/backward links, no sharing), refinement to
  `List Bytes` for every history, determinism of the answers.
* **C14 queue/stack** – histories of pushes and pops. **C18 LTRIM**, **C19 LINDEX/LSET** – refinement.
* **C15 LREM**, **C16 LINSERT** – false for the element/pivot `dummy string`, which the search finds in a sentinel (crash, or an insertion outside the
  list), and for the LREM count -2^63 (negation wraps); exceptions characterised.
* **C17 LRANGE** – a negative right bound is resolved twice; exact window proved, `C17_false` witness.
* **C20 hash**, **C22 set** – refinement to finite maps/sets; false for the empty field/member, which HSET/SADD store but HGET/HEXISTS/HSTRLEN and
  SISMEMBER refuse. `C20_keyLen`: the container's `KeyLen`. **C21**, **C23** – enumeration and set algebra under every iteration order.
* **C75 every choice can happen** – for each answer C21–C24 allow, an iteration order is built that leads to it (`Lemmas/Choice`: visit the
  chosen members first), so the set of possible answers is exactly the allowed one.
* **C24 SPOP/SRANDMEMBER** – every random choice; false without a count on an existing empty set (index out of range).
* **C25 frame**, **C26 failed requests**, **C27 no crash**, **C28 one reply**, **C29 dispatch** – case analysis per command over the reachable-state invariant.
  C26 is false for HSET without fields (creates an empty hash); C27 is an iff on the crashing requests.
* **C72 declarations** (`Model/Access.lean`, `Spec/Access.lean`) – what each command says of itself (`Keys`, `TargetContainerType`, `ShouldCreate`,
  `Type`) against what it does: reads and writes stay within the declared keys and type,
  the declared keys are those of the documented syntax (`C72_keys`), containers come into being exactly as declared. False for
  LTRIM, which is declared as reading (so it is not logged, C33). Findings: SREM creates an empty set; no command ever removes a container.

### Log, recovery, replication (`Model/Proto.lean`, `Log.lean`; `pkg/log`, `pkg/replication`, recovery in `pkg/db/engine.go`)

* **C30 record round trip**, **C31 truncation** – protobuf wire format and 4-byte length prefix; induction over records; every cut.
* **C32 buffered file** – `bufio.Writer` with a 4096-byte buffer and a file that may fail or write short; invariant over histories of writes and flushes.
  `C32_gauges`: `Size`, `Buffered` and `Available` say what is waiting and what still fits.
* **C33 replay** – false: LTRIM is not logged, SPOP replays another random choice, requests that are not UTF-8 are not logged; all other histories by
  induction with the abstract state. `C33_exact` covers every history: the new server executes again exactly the requests that leave a record
  (`Req.Recorded`, Spec/Restart.lean), since a text can be cut at every ASCII character and so a record is in UTF-8 iff all its strings are.
* **C34 log order** – one goroutine per record; every order is reachable, with a diverging example; ordered when writers do not overlap. Flushes for
  replicas may come at any time.
* **C35 append after recovery** – false after a torn tail (the torn bytes stay in the file); true at a record boundary.
* **C59 crash** – the engine's log writers and the buffered file stopped at any moment, composed with C30–C34: what the file holds is a prefix of the
  history's log, a cut record is dropped by the reader, and replaying the rest is the state after a prefix of the requests. False with LTRIM,
  SPOP, non-UTF-8 strings or overtaking writers (`C59_false`). `C59_exact` excludes none of these and says which requests the next server executes.
* **C36 replica transfer** – transfer header, decoding, cuts; exact below 4 GiB, wraps at 2^32.
* **C63 replica and master** (`Model/Master.lean`) – the master's accept loop and one `handleConn` per replica next to the running engine, its log
  writers and the buffered file, and what a starting replica makes of the bytes it gets. An invariant relates what was sent to the log at the flush;
  the log is a prefix of the history's log (C59), so the replica holds a state of its master. False in general (`C63_false`, `C63_lost`,
  `C63_reverts`, `C63_no_file`); in `C63_lost` the file is copied while it ends inside a record. `C63_exact` holds for
  all requests, all schedules and any part of the transfer: it says which requests the replica executes.
* **C64 serving leaves nothing behind** – the same system with arbitrary engine steps; invariants about temporary files, connections and handles.
  False for entries of failed transfers and for the handle on the log file, which is left to the garbage collector.
  `C64_completes`: a transfer that has begun can always be brought to its end, independently of the other replicas.
* **C65 what a configuration starts** – `Config.init` (Model/Start.lean) over a `World` saying which ports are free and what files and masters hold; the wanted port is specified in Spec/Start.lean. Composed with C33 (`C65_restart`) and with the stop machine of C47 (`C65_stop`, `C65_default`); `C65_plain` is what the defaults start. Partial: `ServesReplicas` is refuted by `C65_false`/`C65_edge`.
* **C66 records are protobuf messages** – grammar of the wire format as inductive relations (`Encoded`/`Fields`, Spec/Proto.lean) and the meaning of a list of fields (`Says`); the reader accepts exactly the grammar (`C66_read`, `C66_only`), which is unambiguous; `C66_file` decomposes every file.
* **C73 printed records** (`Model/Quote.lean`) – `FormatLog`, `QuoteJoin` and Go's `strconv.Quote` with `utf8.DecodeRuneInString`; the table behind
  `strconv.IsPrint` is a parameter (fixed on ASCII where needed). A reader of quoted strings is the left inverse (`unquote`), which makes quoted strings
  prefix-free. Records of the server have names without commas; `C73_false` shows two records of a foreign file that are printed alike. `C73_literal` is against the definition of
  string literals in Go's language specification (`Spec/Literal.lean`); `C73_hidden` and `C73_shown` are about the Latin-1 part of `strconv.IsPrint`.

### Concurrency package, network, engine (transition systems)

* **C37 Future** (`Model/Future.lean`) – task, waiters, getters, cancellers; the task's goroutine ends in two own steps (`C37_ends`); two concurrent `Cancel`s can close a channel twice.
* **C38 DataChannel** – senders, receiver, closer, timeouts. **C42 BroadCaster**. **C43 EventBus** – topics under the bus lock.
* **C39 Publish**, **C40 live subscriptions** (`Model/Topic.lean`) – publish goroutines, the collector of closed receivers, re-subscription. C40 is false:
  a new subscription can be removed by the clean-up of its predecessor. `C39_goroutine` and `C39_main` say what each goroutine of a publish does, in order. `C39_no_leak`: a publish that has ended leaves neither its senders nor its
  collector behind.
* **C41 DataMap** – the three implementations, all calls go on by themselves; the sync variant miscounts when two goroutines set one key.
* What each goroutine does with a future, a data channel, a broadcaster, a `syncDataMap` or a connection is a sequence of whole calls, the last one possibly
  under way (`Spec/Calls.lean`, `Spec/WholeCalls.lean`; `C37_cancel_calls`, `C37_wait_calls`, `C38_send_calls`, `C38_receive_calls`, `C38_close_calls`,
  `C41_sync_calls`, `C42_set_calls`, `C42_get_calls`, `C45_calls`).
* **C44 writes cannot block**, **C45 close once** (`Model/Conn.lean`) – connection with its timer and close signal. C44 is false, with four different executions; `C44_expired` shows that a fired timer alone blocks every reader and writer that is about to reset it. When the client goes away while a text is being written, any beginning of it may be out; `C45_wire` says what is on the wire: the texts written in full, and such parts only after the client has gone.
* **C46 replies go to the requester** (`Model/Pipe.lean`) – connections, event bus, the engine's request and response topics as one system. Order and
  delivery are not guaranteed (`C46_reordered`, `C46_lost`, `C46_silent`).
  `Props/Understood.lean`: which events, well-formed or not, server and engine understand (`EventSays`).
* **C68 expiry** (`Model/Expiry.lean`) – the timer of a connection with a discrete clock that moves only when no goroutine of the server can do anything.
  Invariants relate the clock, the moment the timer was set and the trace; `C68_settles` (measure) and `C68_time_passes` show that the assumption never
  stops the clock. Findings: bytes of an unfinished request do not keep a connection alive (`C68_bytes_do_not_count`), and every request leaves a timer
  behind for the whole expire time (`C68_timers_pile_up`; `C68_timers` says exactly which timers are held).
* **C69 reading** (`Model/Feed.lean`, `Spec/Feed.lean`) – bytes arrive in arbitrary pieces; invariant: what arrived = what was read in the grammar of C62
  ++ what is pending. `C69_pieces` compares two executions at rest. Finding: after malformed bytes the server neither answers nor closes (`C69_garbage`).
* **C70 bytes to bytes** (`Model/Net.lean`, `Spec/Net.lean`) – the readers of C69 in front of the system of C46, synchronised at each read. Every execution
  projects to one of each part (`net_split`), so C46 and C69 carry over; `C70_conversation` is an invariant over the executions of a client that waits.
  `C70_crash` and `C70_dead` carry the finding of C05 to the network: exactly a length of -2 from some client kills the server, for all clients.
  `C70_killed` and `C70_fatal` do the same for the engine and the `Fatal` requests of C27; `C70_last`: nothing happens after a crash.
* **C67 one fate per request** (`Props/Fate.lean`) – on the system of C46: a count over all places a request can be in equals the count of reads, so
  every request is on its way or has met exactly one fate. `C67_bounded` and `C67_rest` are termination by a measure. `C67_deliverable` and `C67_answerable` construct the remaining execution that answers.
* **C79 from Publish to Receive** (`Model/Wired.lean`) – the topic of C39 and the channels of C38 as one system: each send of a publish goroutine is a send on
  the channel of the subscription, which takes the decision. One invariant ties every channel to the trace of the topic; C38 and C39 then compose.
* **C80 the event bus is transparent** (`Model/Hub.lean`) – connections, engine and response worker around two systems of C79. Weak bisimulation with the
  system of C46 (`C80_alike`): what is pending in a bag there is an undecided run of `distributeEvent` here. This justifies the abstraction made in
  `Model/Pipe.lean`. `C80_no_wait`, `C80_not_stuck`: no deadlock in the bus. The topics are not removed (that is C47).
* **C81 the whole server** (`Model/Whole.lean`) – the readers of C69, the server of C80 and the writers and file of C34 in one system; a request is received
  (engine.go:106-126, the writer is started) before it is executed. `C81_alike`: weak bisimulation with the system of C70. `C81_log`: simulation by
  `Engine.Step`, the history being the requests executed for the clients, so C33, C34, C59 and C77 apply to it. `C81_restart_partial` is C78 in terms
  of the network: any number of servers one after the other on one file answer their clients as one database would; `C81_exact` says without
  these conditions what the next server holds. The systems from C46 to C81
  start with any contents `st`. `C81_kept` and `C81_lost` show that the clients cannot tell a log that keeps up from one that never writes; `C81_false` is one SET.
* **C82 the whole server and its connections** (`Model/Full.lean`) – the system of C81 together with one of C44 for each connection; reads and writes are
  steps of both, everything else of one. `C82_parts` projects, so all properties of C44, C45, C70 and C81 apply. `C82_wire` joins what C70 says about
  replies with what C45 says about the wire. `C82_open` is the converse of the projection on open connections (`lift_exec`). `C82_heard` says
  when a connection is no longer read from, `C82_last` that a crash ends everything.
* **C83 isolation of clients** – `C83_answers_partial` is an equivalence: in every reachable state of a living process a reply outstanding to a client that is
  connected and reads can be written later, except if the response worker is at conn.go:100 on a connection whose expire worker has gone. `C83_silenced`:
  it is then never written, nor is any other. `C83_newcomer`: yet commands are still executed. `C83_false` is two clients asking GET. "Can be" is what
  the model allows; there is no clock and no fairness in it, and a client that has stopped reading may start again (`C83_stalled` says what if not).
* **C84 stopping the whole server** (`Model/Proc.lean`, `Spec/Proc.lean`) – the system of C82 together with that of C47; accepting, queueing, the response
  worker's turns, writing to and flushing the log are steps of both. `C84_parts` projects, so C44 to C47, C70 and C80 to C83 apply; `C84_serves` is the converse
  before the stop. Requests and replies published to a removed topic are marked and never move (`C84_unheard`, `C84_unsaid`); an engine that has been told to stop executes one more request at most, and its example one more (`C84_once_more`, `Props/Halted.lean`: what it has in its hands never grows without `Receive`); the engine leaves its loop when it sees that it is to stop, and stays out (`C84_ends`). `C84_can_stop`
  and `C84_stops_well` construct a stop after which `StoppedWell` holds, and `C84_restart_partial` says exactly what the next process holds after such stops, `C84_invisible_partial` when the clients cannot tell stops from none. `C84_false` is
  one SET: `main` returns before the flush. `C47_completes` says that only the goroutine in `stop` has to move, which is what lets the stop be completed here.
* **C77 what a killed server leaves behind** (`Spec/Durable.lean`) – the runs of C59 (engine, writers, file with its 4096 byte buffer) cut at any moment.
  `C77_out`: what had left the buffer is executed first by the next server (prefix of the disk is kept by every step). `C77_unserved`: invariant
  disk = start until 4096 bytes are buffered. The claim `Durable` (a server at rest can be killed) is refuted by one SET; `C77_many` loses any number.
* **C78 restarts** (`Spec/Lives.lean`) – `Life`: start on a file (`fromFile`), run engine and writers, end at rest with the buffer empty; `Lives`: any number
  of them. Induction over lives with an invariant that says what replaying the file followed by any further records does. `C78_forgotten` lifts C35 to
  servers: behind a torn record a whole life vanishes; `C78_false` builds such a file by killing a server whose buffer holds the end of a long record.
  `C78_lasting_partial` (`Props/Lasting.lean`): the claim for files that killed servers left with complete records only.
* **C47 graceful stop** (`Model/Stop.lean`) – signal handler, server, engine, replication, log file. Findings: `Stop` without replication crashes before the
  flush; the main goroutine can exit first; `C47_parts` ties the state of each part to the actions of the stop; clients are never closed because `value.(conn)` never matches the stored `*conn`; `Stop` hangs when a
  removal event expires. `C47_main` and `C47_after` give the order of the actions of `main` and what the worker does after the shutdown.

* **C71 the program's own log** (`Model/Logging.lean`, `Spec/Logging.lean`) – `fmt.Sprintf` on strings and ints under `%s`, `%d`, `%v`, zap's levels, and
  logging.go on top. The spec is a template of texts and holes filled in order. Findings: all formatting functions but `Errorf` pass `a` for `a...`; `C71_false`
  proves by comparing lengths that no template and arguments give the right text. `Panic` and `Fatal` return before `InitLog`; `Errorf` without arguments
  logs `%%` and returns `%`. `C71_written` gives the exact text the garbled functions write. `C71_errorf_any` gives the text of `Errorf` for arguments that fit or not, `C71_latest` says that the last `InitLog` applies. Not modelled: errors under other verbs, byte slices, `%w`, encoders, the periodic sync, the copy on the standard error.

### Several clients (`Spec/Isolation.lean`)

* **C57 isolation**, **C58 order of independent clients** – `Names`/`Writes` say which keys of which type a request mentions and may write;
  `patch` transplants the keys of one database into another and commutes with every command that names only those keys (`step_patch`);
  induction over the served sequence. `C57_server` is about every execution of the pipeline system of C46.
* **C60 sending again** (`Spec/Retry.lean`) – commands that state a result (SET, HSET, SADD, ...) against those that state a change; per command the
  second step leaves the abstract database as it is (`settles`), the requests in between by the frame of C57. `C60_others` gives for each remaining
  writing command a reachable database where the repetition changes something.

### Client (`Model/Client.lean`, `ClientMain.lean`; `cmd/client`)

* **C52 input framing** – the quoting scanner and its limits, composed with C01. **C56 output** – `FormatOutput`, injectivity.
* **C61 session** – `main`'s loop with Go's line scanner, against the server of C55 as one connection sees it (lockstep, no lost replies). `Entered` says
  which lines an input consists of (total, `C61_entered`); induction over the lines composes C52, C55, C01 and C09. A crash of the server is the
  branch `C61_crash`; `C61_killed` names the bytes that do it.
* **C85 users at terminals** (`Model/Desk.lean`, `Spec/Desk.lean`) – the client's loop as a state machine for each of any number of connections, on top of
  the system of C82, with bytes arriving in pieces at both ends; the other connections are as in C82. The invariant `TermInv` relates the lines typed, what
  has arrived, the requests read, the replies written and what the client has buffered; `ScreenInv` adds what is on the screen. `C85_one_database` is
  linearizability: places in the order of execution (C70), real time because a reply seen was written, hence executed, before the next line was typed.
  `C85_screen` says what is on the screen and when reading or writing fails, `C85_possible` builds terminals for every run of C82 with clients that ask
  line by line (`Attended`). Assumed: Go runs through a map in some order of its keys (`Fair`), and replies are shorter than 2^63 bytes.
  The process of the server may end at any time (`gone`).
* **C86 users and restarts** (`Model/Site.lean`, `Spec/Site.lean`) – product of the process of C84 and the terminals of C85 (`C86_parts`), and processes run one
  after the other on the same file (`SiteLives`). `C86_users_partial`: induction over the processes; the history C84 gives for each of them is the one that
  explains its terminals (`explains`, from C85). `C86_possible` builds terminals for every run of C84, through the stop; the example has a user who sets a
  key and a user of the next process who gets it. The full claim `KeptForUser` is refuted by `C86_false`: `main` returns while another goroutine is on
  its way to flush the log (C84), and the next process shows the user that the key is missing.
* **C87 users of replicas** (`Model/Fleet.lean`, `Spec/Fleet.lean`) – product of the process of C86 and the goroutines of C64 that serve replicas, with one log file;
  flushing it for a replica is a step of both (`C87_parts`). `replica_state`: what is on the disk is a beginning of the records of all processes (C33/C63 for a
  log that begins with the records of earlier processes, `unhurried_inv_on`, `written_length_on`), a replica gets a prefix of a copy of it, and so replays some
  first of the requests. `C87_users_partial` puts the terminals of master and replica on top (C85, C86) and says which lines the replica's users can count
  on; `C87_possible` and `C87_served_partial` that a replica can be served while nobody else notices. The full claim `ShownAtReplica` is refuted by
  `C87_false`: the user has seen `OK`, but the writer has not been to the file when the replica is served.
* **C88 in the end** (`Spec/Fair.lean`) – executions without end of the system of C82 (`Run`), in which at any time nothing may happen for a while, and weak
  fairness for each goroutine on the way of a request (`Goroutine`, `DoneBy`: who does what; `Run.Fair`). Assumed: the process lives (`Lives`; who kills it is C36 and
  C78), and Go runs through a map in some order of its keys (`Sane`). Proof: what is left to do in a topic for a request (`leftIn`) only ever decreases and does so
  when one of its two goroutines acts, which it can as long as something is left (a timeout can always fire: `can_expire`); the engine, once it has a request, is
  never stuck (C36); the worker always gets back to its channel (`back_waiting`) or is held; the position of a reply in the channel only decreases
  (`buffer_settles`). `C88_answered` puts the fates together (C67, C82). `C88_held` is the converse, `C88_exact` both. `fair_run`: every execution can be continued without
  forgetting any of countably many goroutines; with it `C88_false` and `C88_stalled` continue finite executions in which the worker is held, and the example one in
  which it is not.
* **C89 everything a client sends** (`Spec/Heard.lean`) – the same executions, with fairness for the goroutine reading from one connection (`Reader`) and a connection that
  is left alone (`Run.Keeps`). What is sent is given as bytes that are taken as a sequence of objects (C62), however they arrive. Proof: what has been read is what
  the bytes used so far are taken as, and the rest is still there (C69); taking objects from bytes is deterministic (`taken_more`), so either all objects have been read
  or the next one can be parsed; then the goroutine is at most two steps from reading it, nobody else can take that away (`reader_step`), and the number of objects left
  decreases (`C89_read`). `C89_answered` adds C88. Both have examples of executions without end that meet the hypotheses.
* **C90 the log in the end** (`Spec/Logged.lean`) – the same executions, with fairness for the goroutines that write records (`Writer`). An invariant (`LogAt`) says that the
  records written and the records waiting are those begun, in some order, and that disk and buffer hold what was written unless the file has failed. Proof: by
  counting, every record begun is written in the end (`C90_recorded`); the buffer never holds more than 4096 bytes, so everything is on the disk once the log is flushed
  (`C90_flushed_partial`) or enough has been written (`C90_busy_partial`); C81 relates this to what clients asked for (`C90_kept_partial`). False in general: `C90_false` has
  a fair execution in which a client has got its `+OK`, no writer is waiting, the disk works, and the disk never changes. The examples include an execution in which a
  client sets a key again and again for ever (`endless`).
* **C91 gone in the end** (`Spec/Gone.lean`) – executions without end of the process of C86 (`Proc`), with fairness for those who have a part in stopping (`PartOf`): whoever
  calls `stop`, the main goroutine, the acceptor and the response worker, which has two views in `Proc` (`Phased` says that they agree as long as it is there). Proof: the
  caller goes through its sequence (each of its steps stays possible until it is done), so the shutdown channel is closed; then the acceptor leaves, and the response worker
  leaves when it comes to the top of its loop or finds that its topic is gone. It comes there unless it is held in one `Write` (`WritesForever`, from C88) or waits where
  nothing is (`WaitsForever`); that gives `C91_gone_partial`. `C91_told`: if the removal has been put into the queue it is not held in `Receive`. `C91_exact` is an iff for
  processes that nothing kills. Both exceptions have executions (`C91_waits`, `C91_stalled`) in which the whole shutdown sequence is done and the process is up for ever.
* **C92 what is left of a connection** (`Spec/Leave.lean`) – executions without end of the system of C82 (`Full`), orderly for the connection (`Run.Orderly`): the process lives, the
  goroutines of C88, the reader and those who close the connection are not forgotten, and the timer runs (`Run.Ticks`: when nobody resets it any more, the expire worker leaves its
  `select`; the clock itself is not modelled). When nothing more arrives (`Run.Silent`), the reader does something only finitely often (a measure from the bytes pending and the
  place in `Read`, using that every object takes at least three bytes), so finitely many requests come from the connection, and then the response worker does something about it only
  finitely often (a measure from the requests without a fate, with C67). Hence the timer fires or the channel is closed, and `Close` gets on step by step: `C92_closed_partial`,
  and `C92_exact` as an iff. `C92_reader`: the reader is over or waits at the reset for ever; `C92_ended`; `C92_kept`: the table of clients is never cleaned. `C92_waits`,
  `C92_farewell` and `C92_false` refute each part of the full claim with orderly executions.

* **C93 nobody at a terminal waits for ever** (`Spec/Served.lean`) – executions without end of the system of C85 (`Desk`: users with the client of cmd/client on top of `Full`).
  `Run.Served c` is what the user needs: their client is not forgotten and reads while it waits, what it sends arrives, and while the process is there those who close connection
  `c` are not forgotten and its timer runs. `C93_released`: whoever waits at some time sees the reply to that line or an error in the end, and an error only after the timer has
  fired, the server has died or ended. No assumption is made on engine, topics and response worker: a user whose request is lost or held is released by the timer. (While the user
  waits they send nothing more, so in the end nothing arrives, the resets end, C92 gives the closing of the connection, and the client reads to the end of the stream.)
  `C93_answered`: under `Run.Healthy c` the reply is shown (C89 gives the answer on the connection, C85 that it is the one shown).
* **C94 servers that are started get up in the end** (`Model/Cluster.lean`, `Spec/Cluster.lean`) – any number of servers, each with a configuration (its master if it has one, whether it
  serves replicas, whether it has a log file) and each somewhere between `Init` and `Serve`. `NewEngine`/`NewMaster` listen before `syncExternal` dials the master, and the accept loop
  starts only in `Start`, after it; so a dial to a server that is starting succeeds and the connection stays in its queue. Masters may die and be started again, accept loops may fail.
  The full claim `AllGetUp` is false (`C94_false`): `C94_circle` – once all servers of a circle of masters listen none of them gets up, in any execution in which none of them is killed;
  `C94_self` – a server that is its own master never does. `C94_exact`: in fair executions without end a server that stays gets up iff it is in no `Deadlocked` set (by settling: every server
  passes finitely many stages while it stays, and one that waits for ever in the queue of its master has a master that never accepts). `C94_order_partial`: with a well-founded master
  relation and accept loops that do not fail, all get up. That `handleConn` ends at all once it is begun, which `Cluster` has as one step, is `C94_handled` on the finer model `Master`:
  iff the replica does not stop taking (`Clogged`).
* **C95 what a server takes from its master is passed on** (`Spec/Chain.lean`) – the system of C63 (`Master` around the engine of C34), started on any file that holds the records of
  earlier requests `k` and with any contents `st` (`Engine.startOn`); `syncExternal` for the replica. `C95_exact`: whatever the schedule and whatever arrives, the replica executes its own
  records and then those of `k` and of part of this life's requests, or nothing of the master's if it reports an error; `st` does not occur, because `BuildFromLog` does not write the log
  (C63_exact is the case of an empty file; the part of the proof that is new is that a complete transfer begins with what the file held at the start, `sent_begins`). `C95_forgets`: the
  same for the server's own next start. So `PassedOn` is false (`C95_false`).
* **C96 stopping a master is safe and final** (`Model/Registry.lean`, `Spec/Registry.lean`) – `m.conn`, its mutex and `stop`, with any number of replicas. Changes of the map have a beginning
  and an end, and the runtime ends the process when an iteration asks for an entry, or a change begins, in between (its `hashWriting` flag; undetected corruption is left out). Iteration is as
  the language has it: any order, entries deleted before being reached are not given, later ones may be. `C96_one` (the mutex invariant), `C96_exact` (when the process can be ended),
  `C96_calm_partial` (never, if no change begins between the unlocking and the end of `stop`: at the unlocking nobody is in the map), `C96_closes` (induction over the iteration), `C96_returns`, `C96_before` (a master stopped before it is started lets nobody in).
  `C96_false`: a second replica connecting during `stop` ends the process; `C96_goes_on`: after `stop` whoever connects can be served completely, from every reachable state.
  `C96_left`: whoever served a replica leaves its connection closed, and out of the map if all was sent.
* **C97 what users build on single commands** (`Spec/Recipe.lean`, `Props/Recipe.lean`) – over `Desk`, i.e. users at terminals, any other clients, the network and the whole server. The spec
  only speaks of lines typed, replies shown and requests executed (`Got`, `Earlier`, `Ran`, `Handed`, `HasLock`). C85's linearisation (`explains_all`: every line has a place in one sequential
  trace, in real-time order) reduces each recipe to an induction over sequential traces of the abstract database: `counter` (tickets), `queue` (the list is the stock without what was taken),
  `lock_kept`/`lock_between`/`lock_alone` (between two successful SADDs somebody who had the lock freed it, by strong induction over places). Frame lemmas (C25's `Writes`) take
  care of all other commands. `Props/Script.lean` plays scripted sessions for the examples.
* **C98 what users build on single commands outlasts restarts** (`Spec/RecipeLives.lean`, `Props/RecipeLives.lean`) – C97's recipes over `SiteLives`, processes one after the other on one
  file, each with its users. C84 and C86 give one sequential trace over all processes with the requests of each in one segment (`lives_record`); the places of the lines of all processes
  in it keep the order of processes and, within one, real time (`joined`); so the inductions of C97 apply (`C98_tickets_partial`, `C98_queue_partial`). For the lock (`C98_lock_partial`) the element is in
  the set at the end of a process in which somebody has the lock, and stays through every process that begins with it, since nobody can free it (`lock_record`). `C98_tickets_false`,
  `C98_queue_false`, `C98_lock_false`: `main` may return before the buffered log is flushed; then the next process gives out the same number, item or lock once more (`exits_twice`).
  `Spec/RegisterLives.lean`, `Props/RegisterLives.lean`: the same for C99's register (`C98_register_partial`, `C98_register_false`);
  `Spec/JournalLives.lean`, `Props/JournalLives.lean`: and for C100's log (`C98_journal_partial`, `C98_journal_false`);
  `Spec/GroupLives.lean`, `Props/GroupLives.lean`: and for C101's users who keep to their own keys (`C98_group_partial`, `C98_group_false`): the requests of each process are flagged by
  whether the group asked them, `group_trace` runs the flagged ones of all processes alone, and `joined_of` gives the places over the processes;
  `Spec/CounterLives.lean`, `Props/CounterLives.lean`: and for C102's counter, once some process has set the key to a number (`C98_counter_partial`, `C98_counter_false`);
  `Spec/RollLives.lean`, `Props/RollLives.lean`: and for C103's roll (`C98_roll_partial`, `C98_first_partial`, `C98_roll_false`);
  `Spec/RowLives.lean`, `Props/RowLives.lean`: and for C104's rows (`C98_rows_partial`, `C98_rows_false`);
  `Spec/SheetLives.lean`, `Props/SheetLives.lean`: and for C105's hashes (`C98_sheet_partial`, `C98_sheet_false`);
  `Props/ShelfLives.lean`: and for C107's lists, strings and sets (`C98_list_partial`, `C98_text_partial`, `C98_sets_partial`; refuted by `C98_journal_false`, `C98_rows_false`, `C98_roll_false`).
* **C99 a key is a register** (`Spec/Register.lean`, `Props/Register.lean`) – `Register U tr k vals ver`: value numbers for the lines of the users, from what they typed and saw alone. From C97's
  record (one sequential trace, with places for the lines in real time) by induction over the trace: the number of a place is how many SETs came up to it (`versions`). `C99_register` also says
  that every value after the first was set by an executed request and how many there are. `C99_lost_update`: a concrete run of two users in which an increment made by GET and SET is lost.
* **C100 a list that is only appended to is a log everybody reads alike** (`Spec/Journal.lean`, `Props/Journal.lean`) – `Journal U tr k entries seen`: how many entries each line of a user found. The
  same induction over C97's record (`appended`): the number of a place is the length of the list after it. `entries` is the list stored at the end. `C100_alike`: any two full reads are
  comparable, and in real time the later one extends the earlier one.
* **C101 users who keep to their own keys have a database of their own** (`Spec/Group.lean`, `Props/Group.lean`) – C57 for users at terminals. `KeepsOwn G tr`: no executed request of a connection
  outside the group `G` writes a key that an executed request of the group mentions (others may read them). The record of C88 is filtered to the requests of the group (`group_trace`, by the frame and
  the locality of commands); the place of a line becomes the number of group requests before it. `C101_alone`: for a group of one user the places are the numbers of the lines. `C101_onlookers`: others who only read change nothing at all. Conditional on fair
  orders and replies that can be sent, as C88.
* **C102 a key that is only added to counts exactly** (`Spec/Counter.lean`, `Props/Counter.lean`) – C97's tickets for arbitrary amounts of either sign. `Counter U tr k v ds seen`: the amounts `ds` one after
  the other, `seen c i` of them found counted by line `i` of user `c`; `C102_counter` obtains `ds` by induction over the record of C88 (`counts`), with as many amounts as adding requests were executed and
  the final value `v + ds.sum` in 64 bits. A request whose amount is no number changes nothing and is no amount. `C102_exact`: without the wrap, if the number of adding requests times the largest amount
  fits. The key must hold a number at the beginning: INCR does not create keys (C08). `C99_lost_update` shows that reading and writing back with SET does lose amounts.
* **C103 a set that is only added to is a roll** (`Spec/Roll.lean`, `Props/Roll.lean`) – C100's log for sets. `Roll U tr k names seen`: the names in the order in which they came, of which line `i` of user
  `c` found the first `seen c i`; `C103_roll` obtains the order by induction over the record of C88 (`gathers`: a request that adds puts its new names, without repetitions, behind those already there),
  although the set itself has none and SMEMBERS may list it in any (`∃ ms, ms.Perm …`). `C103_first`: of all lines `SADD k m` at most one is told 1. SISMEMBER of the empty name is left out:
  on a set that exists it is an error.
* **C104 keys that are only set together are never seen half set** (`Spec/Row.lean`, `Props/Row.lean`) – C99's register for a list of distinct keys. `Rows U tr ks rows ver`: the keys have the rows one after
  the other, line `i` of user `c` found or made number `ver c i`; `C104_rows` by induction over the record of C88 (`changes`, `setRow`). `C104_alike`: keys that begin alike and are only set alike are seen
  alike; `C104_torn`: with SET and SET somebody sees the first only.
* **C105 what many users see of a hash** (`Spec/Sheet.lean`, `Props/Sheet.lean`) – `ReadsHash`, `WritesHash`: what a command that reads or writes a hash shows, or makes of it, in terms of lookups. `Sheet U tr k
  ms ver`: the contents one after the other. `C105_sheet` has no hypothesis on what is done to the hash; it is an instance of `passes`, an induction over the record of C88 for any part of the database
  that each command writes, reads or leaves. `C105_together`: fields only set together are seen all or none.
* **C106 what every command executed keeps** (`Props/Kept.lean`) – for any statement `P` about the abstract database: if `Step` of each command that is ever executed keeps `P`, every reply a user gets
  is that of a `Step` from a database with `P` to one with `P`. `C106_kept` by induction over the record of C88; `C106_number` is the instance "the key holds a number".
* **C107 what many users see of a list, a string and the sets** (`Spec/Shelf.lean`, `Props/Shelf.lean`) – `ReadsList`/`WritesList`, `ReadsText`/`WritesText`, `ReadsSets`/`WritesSets`: what each command
  that reads or writes there answers, and makes of what is there. `Contents` (`Spec/Sheet.lean`, shared with C105): the contents one after the other. `C107_list`, `C107_text`, `C107_sets` have no
  hypothesis on what is done; all three, and `C105_sheet`, are instances of `contents` (`Props/Sheet.lean`).
* **C108 what every command keeps, outlasts restarts and a crash** (`Spec/Survives.lean`, `Props/Survives.lean`) – `KeptBy P q`, `EndedUncut` (servers one after the other, each ended at any moment at
  which the file holds complete records only), `RunsLast` (and then one more that ends at any moment). `C108_kept_partial` for every `P`: any beginning of the log is the log of requests that were served, each of which keeps `P` (`parse_recorded`, `trace_keeps`). `C108_together_partial`: keys
  only set together. The full claim `KeptForever`, with any number of crashes, is false: `C108_kept_false` (a cut record swallows the next one; a key then holds a text nobody sent); `Props/KeptLives.lean`: the same as
  users see it (`C108_users_partial`, `C108_pair_partial`).
* **C109 any log** (`Spec/AnyLog.lean`, `Props/AnyLog.lean`) – `ReadTexts` (the arguments that begin with a RESP value, by `Taken` of C62), `AsksFor`, `Replays` (one record after the other in the database it
  names, or skipped). `C109_replay`: induction over the records with the refinement of single commands; the disjunction says exactly where the server dies. Added because a mutant that stops replay at
  a record that is no command was not noticed.
* **C110 refused input** (`Spec/Refused.lean`, `Props/Refused.lean`) – `BrokenLine`, `Refused` (an inductive grammar of malformed input, using `Taken` of C62 for the elements before the malformed one).
  `C110_refused`: both directions by induction (over the length of the input, over the grammar); `C110_soon`: no part of a refused form is refused; `C110_waits`: the rest of the inputs, so that every input is one of object, refused, deadly, unfinished.
  `Props/RefusedFeed.lean`: `C110_connection`, `C110_stopped` – what this means on a connection (the executions of C69).

### Sorted set (`Model/SortedSet.lean`; `pkg/container/sorted_set.go`, exported, not used by any command)

* **C53 contents** – skip list at pointer level with arbitrary random levels. Representation invariant `Rep` (per-level chains, heights, map from
  entries to nodes) allowing nodes that a failed deletion left behind; every history agrees with a finite map up to the first crash; order by
  score and entry without NaN and empty entries. False: deletion walks past a node when a taller one follows, and a later PopMin or Add crashes.
  What the code does instead is stated exactly: `Spec/Cells.lean` describes a set by a row of cells (score, entry or none, height) without pointers
  or levels, `C53_exact` proves that answers and crashes are those of this row for all calls and all random levels (simulation over `Rep`),
  `C53_crashes` lists which calls crash, and `C53_drain` when a set can be emptied with `PopMin`.
* **C54 Rank/PopMax** – Rank crashes on every present entry (the loop condition joins with `||`); PopMax crashes after the last element was
  deleted, because `delete` does not repair the back pointer; hence two `PopMax` in a row crash whenever there are entries left (`C54_twice`).

## Mutation tests

`seeded/LOG.jsonl` records one line per seeded bug: definition, edit, claim broken, theorems that no longer check (and property files that
therefore do not build), theorems tightened.
