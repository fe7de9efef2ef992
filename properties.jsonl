{"id": "C01", "title": "RESP round trip", "statement": "Writing any RESP object to a byte stream and reading one object back from that stream yields the same object (type, data and bytes) and consumes exactly the bytes that were written. Bulk strings, integers, nulls and arbitrarily nested arrays are unrestricted; a simple string or error line round-trips exactly when its text holds neither CRLF nor two consecutive LFs.", "quantifier": "every RESP object of any nesting depth and size, any payload bytes, any bytes that follow in the stream", "why_tests_cant": "payload bytes, lengths and nesting are unbounded; a test samples a few objects", "anchors": ["pkg/protocol/resp.go:NewSimpleRedisString,NewBulkRedisString,NewNullBulkRedisString,NewRedisError,NewRedisInteger,NewRedisArray,NewNullRedisArray", "pkg/protocol/reader.go:readToken,readBytes,readString,readError,readInteger,readArray,readObject,Parse"]}
{"id": "C02", "title": "RESP pipelining", "statement": "A stream that is the concatenation of any number of encoded objects is read back by successive ReadObject calls as exactly those objects in order, ending in end-of-file with nothing left over.", "quantifier": "every finite sequence of round-trippable objects", "why_tests_cant": "unbounded number and shape of objects in one stream", "anchors": ["pkg/protocol/reader.go:NewRESPReader,ReadObject"]}
{"id": "C03", "title": "RESP reads do not depend on later bytes, and a truncated object is never accepted", "statement": "If reading succeeds, it succeeds with the same object whatever bytes are appended after the ones it consumed; and no proper prefix of an encoded object is accepted as an object: reading it fails with end-of-file.", "quantifier": "every byte stream and every continuation; every object and every cut point", "why_tests_cant": "the cut points and continuations are unbounded", "anchors": ["pkg/protocol/reader.go:readToken,readBytes,readObject"]}
{"id": "C04", "title": "RESP re-encoding is stable", "statement": "Any object the reader accepts, re-encoded with String()/Byte() and read again, gives the same object. (The write-ahead log depends on this: it stores arguments in re-encoded form.)", "quantifier": "every accepted byte stream, including non-canonical ones such as '+5' lengths or LF inside simple strings", "why_tests_cant": "ranges over all byte strings", "anchors": ["pkg/protocol/reader.go:readObject", "pkg/protocol/resp.go", "pkg/log/log.go:NewLog"]}
{"id": "C05", "title": "No byte stream crashes the RESP reader", "statement": "Reading an object from any byte stream returns an object or an error and never panics. (The code violates this for a bulk length of -2; the exact crash condition is characterised.)", "quantifier": "every byte stream", "why_tests_cant": "ranges over all byte strings", "anchors": ["pkg/protocol/reader.go:readString,readBytes"]}
{"id": "C06", "title": "The RESP reader always terminates and makes progress", "statement": "On every finite stream a read terminates, and a successful read consumes at least three bytes, so a reader loop over a finite stream performs finitely many reads however large the announced lengths are.", "quantifier": "every byte stream, any announced array or bulk length", "why_tests_cant": "a huge announced length or deep nesting cannot be exhausted by tests", "anchors": ["pkg/protocol/reader.go:readArray,readObject"]}
{"id": "C07", "title": "Integer parsing is exact", "statement": "An argument is accepted as an integer exactly when it is an optional sign followed by one or more decimal digits whose value lies in [-2^63, 2^63-1], and the value used is that value; formatting any 64-bit integer and parsing it back is the identity.", "quantifier": "every byte string and every 64-bit integer", "why_tests_cant": "2^64 values and unbounded strings (leading zeros, signs, overflow boundaries)", "anchors": ["pkg/util/util.go:ParseInt64", "pkg/container/int_variant.go:newIntVariant,AsString"]}
{"id": "C08", "title": "INCR/INCRBY/DECR/DECRBY arithmetic", "statement": "On a key holding an integer, INCRBY d replies value+d, stores its decimal form (visible to GET, STRLEN, further INCRs) and touches no other key; on a missing key or non-integer it replies an error and changes nothing. The result is the true sum when it fits in 64 bits; the code wraps modulo 2^64 instead of reporting an error when it does not.", "quantifier": "every stored value, every increment, every database state", "why_tests_cant": "boundaries of the 64-bit range and all states", "anchors": ["pkg/container/string.go:Increase,Decrease", "pkg/container/int_variant.go:Increase,Decrease", "pkg/container/string_map.go:Increase,Decrease", "pkg/command/global.go:incrCommand,decrCommand"]}
{"id": "C09", "title": "GET returns the last written value", "statement": "After a successful SET k v, and after any number of further requests none of which writes the string key k, GET k replies exactly v (any bytes, including empty); and GET of a never-written key replies null.", "quantifier": "every key, value, starting state and interleaved request history", "why_tests_cant": "unbounded histories", "anchors": ["pkg/command/global.go:setCommand,getCommand", "pkg/container/string_map.go:Set,Get", "pkg/db/db.go:ExecuteCommand"]}
{"id": "C10", "title": "APPEND and STRLEN", "statement": "APPEND k v makes the value of k the old value (empty if missing) followed by v and replies its new length, STRLEN always equals the length of what GET returns (0 if missing).", "quantifier": "every key, value and state", "why_tests_cant": "all byte strings and states", "anchors": ["pkg/container/string.go:Append,update", "pkg/container/string_map.go:Append,StringLen", "pkg/command/global.go:appendCommand,strlenCommand"]}
{"id": "C11", "title": "GETRANGE window", "statement": "GETRANGE k a b replies exactly the bytes of the value at positions a..b inclusive with negative positions counted from the end and b clamped to the last position, and the empty string when the window is invalid or the key is missing.", "quantifier": "every value and every pair of 64-bit positions", "why_tests_cant": "all index pairs and lengths", "anchors": ["pkg/util/index.go:ResolveRaw,Resolve", "pkg/container/string.go:GetRange", "pkg/command/global.go:getRangeCommand"]}
{"id": "C12", "title": "MSET/MGET/EXISTS agree with SET/GET", "statement": "MSET k1 v1 .. kn vn has the same effect as SET k1 v1; ..; SET kn vn in order (later duplicates win); MGET replies, position by position, what GET would reply; EXISTS counts, with multiplicity, the keys for which GET is not null.", "quantifier": "every list of keys and values, with repetitions, every state", "why_tests_cant": "unbounded lists and states", "anchors": ["pkg/command/global.go:msetCommand,mgetCommand,existsCommand", "pkg/container/string_map.go:Set,Get,Exists"]}
{"id": "C13", "title": "A list behaves as a sequence", "statement": "Under every sequence of list operations the doubly linked list is observably the pure sequence obtained by applying the same operations to an abstract list: every reply matches, LLEN is the true length, forward and backward traversals agree, no dangling or shared node is reachable.", "quantifier": "every finite history of LPUSH/RPUSH/LPOP/RPOP/LINDEX/LSET/LINSERT/LREM/LTRIM/LRANGE/LLEN with any arguments", "why_tests_cant": "unbounded operation sequences over a pointer structure", "anchors": ["pkg/container/list.go:linkedList,insertBefore,insertAfter,deleteNode,PushHead,PushTail,PopHead,PopTail,Insert,Set,Remove,Index,Range,Trim,Len"]}
{"id": "C14", "title": "Queue and stack order", "statement": "Elements pushed at one end and popped at the other come out in push order, pushed and popped at the same end in reverse order, each exactly once, and popping an empty or missing list replies null.", "quantifier": "every list of elements (duplicates included) and every prior content", "why_tests_cant": "unbounded number of elements", "anchors": ["pkg/container/list.go:PushHead,PushTail,PopHead,PopTail", "pkg/command/list.go:lpushCommand,rpushCommand,lpopCommand,rpopCommand"]}
{"id": "C15", "title": "LREM removes exactly the requested occurrences", "statement": "LREM k n x removes the first n (n>0), last |n| (n<0) or all (n=0) occurrences of x, keeps every other element in order, and replies the number removed. (The code crashes for x = 'dummy string', and removes nothing for n = -2^63.)", "quantifier": "every list, element and 64-bit count", "why_tests_cant": "all lists, values and counts including -2^63", "anchors": ["pkg/container/list.go:deleteFromHead,deleteFromTail,Remove", "pkg/command/list.go:lremCommand"]}
{"id": "C16", "title": "LINSERT inserts next to the first pivot", "statement": "LINSERT puts the new element immediately before/after the first occurrence of the pivot and replies the new length, or replies -1 and changes nothing if the pivot is absent. (The code treats its hidden sentinel text 'dummy string' as a pivot that is always present, and crashes on BEFORE.)", "quantifier": "every list, pivot, element", "why_tests_cant": "all lists and values", "anchors": ["pkg/container/list.go:Insert,insertAfter,insertBefore", "pkg/command/list.go:linsertCommand"]}
{"id": "C17", "title": "LRANGE window", "statement": "LRANGE k a b replies the elements at positions a..b inclusive with negative positions counted from the end and b clamped, and a null array when the window is invalid. (The code resolves a negative right bound twice, so b in [-2n,-n-1] wrongly yields elements; the exact window is characterised.)", "quantifier": "every list and every pair of 64-bit positions", "why_tests_cant": "all index pairs and lengths", "anchors": ["pkg/container/list.go:extractSegment,Range", "pkg/util/index.go:Slice.Resolve", "pkg/command/list.go:lrangeCommand"]}
{"id": "C18", "title": "LTRIM keeps exactly what LRANGE would show", "statement": "After LTRIM k a b the list equals what LRANGE k a b would have replied just before, and when LRANGE would have replied null the list is unchanged; the reply is OK in both cases and LLEN stays exact.", "quantifier": "every list and every pair of positions", "why_tests_cant": "pointer surgery at both ends for every window", "anchors": ["pkg/container/list.go:Trim,releaseList,extractSegment", "pkg/command/list.go:ltrimCommand"]}
{"id": "C19", "title": "LINDEX/LSET address the same element", "statement": "LINDEX k i replies the i-th element (negative from the end) or null out of range; LSET k i v changes exactly the element LINDEX k i addresses, leaves all others and the length unchanged, and out of range replies an error and changes nothing.", "quantifier": "every list, index and value", "why_tests_cant": "all indices and lengths", "anchors": ["pkg/container/list.go:extract,Set,Index", "pkg/util/index.go:Index.Resolve", "pkg/command/list.go:lsetCommand,lindexCommand"]}
{"id": "C20", "title": "A hash behaves as a finite map", "statement": "Under HSET/HDEL/HGET/HMGET/HEXISTS/HSTRLEN/HLEN a hash key behaves as a finite field->value map: HSET makes the fields map to the given values (later duplicates win) and replies the number of fields that were new; HDEL removes exactly the named fields and replies how many existed; reads agree with the map.", "quantifier": "every hash, field list (with repetitions) and value list", "why_tests_cant": "unbounded histories and sizes", "anchors": ["pkg/container/hash.go:Set,Get,Exists,Del,KeyLen,Len", "pkg/command/hash.go"]}
{"id": "C21", "title": "HKEYS/HVALS/HGETALL enumerate exactly the hash", "statement": "Whatever iteration order the runtime picks, HGETALL replies each field exactly once directly followed by its own value, HKEYS each field exactly once, HVALS the multiset of values.", "quantifier": "every hash and every map iteration order", "why_tests_cant": "iteration order is chosen by the runtime, n! of them", "anchors": ["pkg/container/hash.go:Keys,Values,Entries", "pkg/command/hash.go:hgetallCommand,hkeysCommand,hvalsCommand"]}
{"id": "C22", "title": "A set behaves as a mathematical set", "statement": "SADD adds exactly the given members and replies how many were new, SREM removes exactly the given members and replies how many were present, SISMEMBER/SCARD/SMEMBERS agree with the set, with duplicates in the arguments counted once.", "quantifier": "every set and argument list, every iteration order", "why_tests_cant": "unbounded sizes and orders", "anchors": ["pkg/container/set.go:Add,Delete,IsMember,Members,Len", "pkg/command/set.go"]}
{"id": "C23", "title": "Set algebra", "statement": "SDIFF/SINTER/SUNION reply exactly the difference/intersection/union of the named sets (missing keys are empty sets), each member once, a null array when empty, without modifying any operand, whatever the iteration orders.", "quantifier": "every number of operands, repeated operands, missing operands, every iteration order of every intermediate map", "why_tests_cant": "unbounded operand lists and iteration orders", "anchors": ["pkg/container/set.go:Diff,Intersect,Union", "pkg/command/set.go:sdiffCommand,sinterCommand,sunionCommand"]}
{"id": "C24", "title": "SPOP/SRANDMEMBER", "statement": "SPOP k n replies min(|n|,card) distinct members and removes exactly those; SRANDMEMBER k n replies min(|n|,card) distinct members and removes nothing; for every random choice. (Without a count the code crashes on an existing empty set.)", "quantifier": "every set, 64-bit count (including -2^63) and every random choice", "why_tests_cant": "random choices and counts", "anchors": ["pkg/container/set.go:RandomMember,Pop", "pkg/command/set.go:spopCommand,srandmemberCommand"]}
{"id": "C25", "title": "Requests only touch what they name", "statement": "A request changes nothing outside the keys it names within the namespace of its own type (string, list, hash, set namespaces are disjoint: the same key can exist in all four); read-only commands change nothing at all.", "quantifier": "every state, every request, every other key", "why_tests_cant": "all pairs of request and key, all states", "anchors": ["pkg/db/db.go:resolveName,ExecuteCommand", "pkg/container/container.go", "pkg/command/*.go"]}
{"id": "C26", "title": "Failed requests have no effect", "statement": "A request answered by an error reply leaves every later observation unchanged. (False for HSET with no fields, which creates an empty hash before failing; characterised exactly.)", "quantifier": "every state and request", "why_tests_cant": "all error paths in all states", "anchors": ["pkg/db/engine.go:handleRequest", "pkg/db/db.go:ExecuteCommand", "pkg/command/hash.go:hsetCommand"]}
{"id": "C27", "title": "No request crashes the server", "statement": "No well-formed request makes the server panic, in any reachable state. (False; the exact set of crashing requests is characterised: empty key for HSET/SADD/SREM, SPOP/SRANDMEMBER without count on an existing empty set, LREM/LINSERT BEFORE with 'dummy string'.)", "quantifier": "every reachable state and every request array", "why_tests_cant": "all requests in all reachable states", "anchors": ["pkg/db/engine.go:handleRequest", "pkg/command/set.go", "pkg/command/hash.go", "pkg/container/list.go"]}
{"id": "C28", "title": "Every request gets one reply of the documented shape", "statement": "Every request array that does not crash the server produces exactly one reply, which is an error or a reply of the type fixed by the command, and never an absent reply.", "quantifier": "every state and request array", "why_tests_cant": "all requests and states", "anchors": ["pkg/db/engine.go:handleRequest,Start,handleError"]}
{"id": "C29", "title": "Command dispatch", "statement": "Command names are matched case-insensitively; an unknown name or wrong number/type of arguments is answered with the corresponding error and changes nothing.", "quantifier": "every byte string as a name, every argument list", "why_tests_cant": "unbounded names and argument lists", "anchors": ["pkg/command/command.go:NewCommand", "pkg/command/*.go:ParseArguments"]}
{"id": "C30", "title": "Log records round trip", "statement": "Packing any sequence of log records and parsing the bytes returns exactly that sequence (for records under 4 GiB with valid text).", "quantifier": "every list of records of any content", "why_tests_cant": "unbounded records", "anchors": ["pkg/log/log.go:PackLog,ParseLog,readLog", "pkg/log/log.pb.go"]}
{"id": "C31", "title": "Crash-truncated logs yield the complete-record prefix", "statement": "If the log file is cut at an arbitrary byte, parsing returns exactly the records that lie entirely before the cut, in order, and nothing else.", "quantifier": "every log and every cut position", "why_tests_cant": "every crash point", "anchors": ["pkg/log/log.go:ParseLog,readLog", "pkg/util/util.go:ReadExactBytes", "pkg/network/server.go:fromFile"]}
{"id": "C32", "title": "Buffered log file never reorders or invents bytes", "statement": "At every moment the bytes on disk are a prefix of the bytes written so far, at most one buffer (4096 bytes) is missing, and after Flush nothing is missing.", "quantifier": "every sequence of writes (any sizes) and flushes, every crash point", "why_tests_cant": "unbounded write sizes and crash points", "anchors": ["pkg/log/persistent.go:Write,Flush,WriteByte,WriteString,Size,Buffered,Available"]}
{"id": "C33", "title": "Replaying the log rebuilds the database", "statement": "For every history, replaying the logged requests in order into an empty database yields a database that answers every later request as the original would. (False: LTRIM is not logged and SPOP replays with a different random choice; proved for histories without them.)", "quantifier": "every request history, every random choice at replay", "why_tests_cant": "unbounded histories", "anchors": ["pkg/db/engine.go:handleRequest,writeLog,BuildFromLog,convertArguments", "pkg/log/log.go:NewLog", "pkg/command/list.go:ltrimCommand.Type"]}
{"id": "C34", "title": "Log order equals execution order", "statement": "The log file lists the logged requests in the order in which they were executed. (False: each record is written by its own goroutine; the possible orders are characterised and a state-diverging one exhibited.)", "quantifier": "every history and every goroutine schedule", "why_tests_cant": "schedules are unbounded", "anchors": ["pkg/db/engine.go:handleRequest,writeLog", "pkg/log/persistent.go:Write"]}
{"id": "C35", "title": "Appending after crash recovery loses nothing", "statement": "Records appended after recovering from a truncated log are returned by the next parse. (False when the cut is inside a record: the torn bytes are not removed; proved when the cut is at a record boundary.)", "quantifier": "every log, cut position and later appended record", "why_tests_cant": "crash points and histories", "anchors": ["pkg/network/server.go:fromFile", "pkg/log/log.go:ParseLog"]}
{"id": "C36", "title": "Replica receives exactly the master's log", "statement": "What a replica decodes from the master's transfer is exactly the list of complete records in the master's log file when the file is under 4 GiB, and a transfer cut anywhere is rejected as a whole. (At 4 GiB and above the length wraps modulo 2^32.)", "quantifier": "every log file and every cut point of the transfer", "why_tests_cant": "sizes and cut points", "anchors": ["pkg/replication/master.go:handleConn", "pkg/replication/replica.go:Receive", "pkg/network/server.go:fromMaster"]}
{"id": "C37", "title": "Future results", "statement": "In every interleaving, a Get or Wait that reports success happens after the task finished and returns exactly the task's result; a Get that reports cancellation happens only after some Cancel succeeded. (Concurrent Cancels can crash by double close; with one canceller no interleaving crashes.)", "quantifier": "every interleaving of the task, any number of waiters and cancellers", "why_tests_cant": "schedules", "anchors": ["pkg/concurrency/future.go:start,Cancel,Get,Wait,WaitFor"]}
{"id": "C38", "title": "Data channels are FIFO and exact", "statement": "In every interleaving of senders and the receiver, the received events are exactly a prefix of the events whose Send returned Success, in that order: no loss before that prefix, no duplication, no invention; an Expired or Closed send is never received; the buffer never exceeds its size.", "quantifier": "every schedule of sends, receives, timeouts and close, any buffer size", "why_tests_cant": "schedules", "anchors": ["pkg/concurrency/data_channel.go:Send,Receive,Close,NewDataChannelWithOption"]}
{"id": "C39", "title": "Publish counts deliveries", "statement": "The number a Publish future yields equals the number of subscribers whose channel accepted the event, in every interleaving, and the publish terminates whatever the subscribers do.", "quantifier": "every number of subscribers, every schedule of accept/expire/close", "why_tests_cant": "schedules", "anchors": ["pkg/concurrency/topic.go:Publish,distributeEvent"]}
{"id": "C40", "title": "A live subscription is never dropped", "statement": "A subscriber that has not closed its receiver keeps receiving. (False: re-subscribing under the same name while a publish is cleaning up a closed receiver removes the new one.)", "quantifier": "every schedule of subscribe, close, publish", "why_tests_cant": "schedules", "anchors": ["pkg/concurrency/topic.go:Subscribe,batchRemove,distributeEvent"]}
{"id": "C41", "title": "DataMap length is exact", "statement": "For each DataMap implementation, after any sequence of completed operations Len equals the number of keys for which Has is true and Get returns the last Set. (For the sync variant this fails under concurrency; for the locked variant it holds in every interleaving.)", "quantifier": "every sequence and, for the locked variant, every interleaving of operations", "why_tests_cant": "unbounded sequences and schedules", "anchors": ["pkg/types/data_map.go"]}
{"id": "C42", "title": "BroadCaster delivers the message to everyone", "statement": "Every Get returns only after Set and returns the set message, for any number of getters and any interleaving; a second Set crashes.", "quantifier": "every interleaving", "why_tests_cant": "schedules", "anchors": ["pkg/concurrency/broadcast.go"]}
{"id": "C43", "title": "EventBus topics", "statement": "Publish/Subscribe on a topic succeed exactly between a successful NewTopic and the next successful RemoveTopic of that name; NewTopic/RemoveTopic report whether they changed anything.", "quantifier": "every history of topic operations", "why_tests_cant": "unbounded histories", "anchors": ["pkg/concurrency/event_bus.go"]}
{"id": "C44", "title": "Connections cannot block the server", "statement": "Writing a response to one connection never blocks forever, so one client cannot stop responses to the others. (False: a connection that closes between the closed-check and the timer reset leaves the writer blocked forever.)", "quantifier": "every interleaving of reader, writer, expiry timer and close", "why_tests_cant": "schedules", "anchors": ["pkg/network/conn.go:Read,Write,Close,startExpireWorker", "pkg/network/server.go:responseWorker"]}
{"id": "C45", "title": "Connection close is once-only", "statement": "In every interleaving at most one Close succeeds, the farewell message is written at most once and before the socket is closed, and the close signal is never closed twice.", "quantifier": "every interleaving of any number of closers", "why_tests_cant": "schedules", "anchors": ["pkg/network/conn.go:Close,IsClosed"]}
{"id": "C46", "title": "Replies go to the requester, at most once", "statement": "In every interleaving each reply is written to the connection its request came from and each request is executed and answered at most once. Engine and server take from an event on the bus exactly what it says under the documented names, and ignore events that do not say it. (Order and delivery are not guaranteed: pipelined requests may be reordered or dropped.)", "quantifier": "every interleaving of connections, publish goroutines, engine and response worker", "why_tests_cant": "schedules", "anchors": ["pkg/network/server.go:newConn,responseWorker,parseResponse", "pkg/db/engine.go:Start,parseRequest", "pkg/concurrency/topic.go:distributeEvent"]}
{"id": "C47", "title": "Graceful stop", "statement": "Stopping the server, from any number of goroutines, runs the shutdown sequence once and flushes the log. (False when replication or the database file is not configured: stopping crashes before flushing; and the main goroutine may exit the process before the flush.)", "quantifier": "every configuration and interleaving of stop calls", "why_tests_cant": "configurations and schedules", "anchors": ["pkg/network/server.go:stop,Stop", "pkg/db/engine.go:Stop", "pkg/log/persistent.go:Flush"]}
{"id": "C48", "title": "LexicalCompare is a lexicographic order", "statement": "LexicalCompare(a,b) is negative, zero, positive exactly when a is less than, equal to, greater than b in byte-lexicographic order, and its magnitude is the documented position. (False when exactly one string is empty: it returns 0.)", "quantifier": "every pair of byte strings", "why_tests_cant": "unbounded strings", "anchors": ["pkg/util/util.go:LexicalCompare"]}
{"id": "C49", "title": "Index and slice resolution", "statement": "Index.Resolve/Slice.Resolve return the documented position(s) within the range or -1, for every index and size; a valid result always addresses existing elements with left <= right.", "quantifier": "every pair of indices and size", "why_tests_cant": "all integers", "anchors": ["pkg/util/index.go"]}
{"id": "C50", "title": "Handler pipelines stop at the first error", "statement": "Pipeline.Run runs the handlers in order, feeding each the previous result, stops at the first error, runs no handler after it, and returns that handler's result and error.", "quantifier": "every list of handlers and every context", "why_tests_cant": "unbounded lists, arbitrary handlers", "anchors": ["pkg/util/pipeline.go:Run,AddHandler"]}
{"id": "C51", "title": "String equality is by content", "statement": "Two string values compare equal exactly when their bytes are equal, regardless of hash collisions, and cached length, hash and integer view always agree with the bytes, after any sequence of increments. The reply objects made of a string carry exactly its bytes, or its number when it has one.", "quantifier": "every pair of strings and increment history", "why_tests_cant": "hash collisions and unbounded histories", "anchors": ["pkg/container/string.go:NewString,update,Equals,Increase,Decrease"]}
{"id": "C52", "title": "Client input framing", "statement": "Whatever line is typed, the request the client sends is a single well-formed array of bulk strings that the server reads back as exactly the parsed words; words without spaces or quotes joined by single spaces are sent verbatim. (Text glued before a quote is dropped, and empty quoted words vanish.)", "quantifier": "every input line", "why_tests_cant": "unbounded lines", "anchors": ["cmd/client/internal/codec.go:FormatInput,parseString,parseQuote"]}
{"id": "C53", "title": "Sorted set contents", "statement": "For every sequence of calls and whatever the random levels, the answers of a sorted set are those of a finite map from entries to scores (Add keeps the score of an entry that is there, IncreaseBy adds to it, Del and the pops take out), PopMin answers with a least entry, and no call crashes. (False: a deletion can miss a node that is lower than a later one, and a later PopMin or Add then crashes; NaN scores and the empty entry break the order.)", "quantifier": "every operation sequence and every random level choice", "why_tests_cant": "random levels, unbounded histories over a pointer structure", "anchors": ["pkg/container/sorted_set.go:insert,delete,deleteNode,Add,Del,IncreaseBy,PopMin,Score,Len"]}
{"id": "C54", "title": "Sorted set Rank and PopMax", "statement": "Rank returns the number of smaller elements and PopMax returns a greatest element. (False: Rank crashes on every existing entry, and PopMax crashes after a deletion of the last element.)", "quantifier": "every reachable sorted set", "why_tests_cant": "all states", "anchors": ["pkg/container/sorted_set.go:getRank,Rank,PopMax,delete"]}
{"id": "C55", "title": "Replies are framed", "statement": "Every reply is written as bytes that the client's reader takes for exactly that reply, leaving whatever follows on the connection untouched. (False exactly when the error text repeats part of the request that has a line break: the first element if it is not a string, the key if the step of INCRBY or DECRBY is not an integer, the values pushed onto the list with the empty name; the connection is out of step from then on.)", "quantifier": "every state, every request, every continuation of the stream", "why_tests_cant": "unbounded requests and states; arbitrary following bytes", "anchors": ["pkg/db/engine.go:handleRequest,handleError", "pkg/protocol/resp.go:String", "pkg/protocol/reader.go:readToken,ReadObject"]}
{"id": "C56", "title": "What the client shows", "statement": "The text the client prints for a reply determines the reply: null, integers, errors and empty arrays each have a form of their own, a text between quotes is exactly the string received, and for arrays of strings without line breaks the printed lines determine the array. (False with line breaks inside the strings; simple and bulk strings look alike.)", "quantifier": "every reply object", "why_tests_cant": "unbounded objects; injectivity relates all pairs of replies", "anchors": ["cmd/client/internal/codec.go:FormatOutput"]}
{"id": "C57", "title": "Clients on their own keys do not notice each other", "statement": "When many clients' requests are answered in any interleaving and no client writes a key (of a type) that another one mentions, every client is told what it would be told if its own requests were the only ones ever sent, and its keys hold at the end what they would hold then; this also holds of every execution of the concurrent server.", "quantifier": "every number of clients, every request sequence, every interleaving, every initial state", "why_tests_cant": "relates every interleaving to each client's run alone (a hyperproperty)", "anchors": ["pkg/db/engine.go:handleRequest,Start", "pkg/db/db.go:ExecuteCommand"]}
{"id": "C58", "title": "The order of independent clients does not matter", "statement": "If no client writes a key another mentions, then any two interleavings of the same clients' request sequences end in the same database contents and tell every client the same (for replies listing map entries: see the unordered commands), and if one interleaving crashes no request then neither does the other.", "quantifier": "every pair of interleavings, every initial state", "why_tests_cant": "quantifies over pairs of interleavings", "anchors": ["pkg/db/engine.go:handleRequest", "pkg/db/db.go:ExecuteCommand"]}
{"id": "C59", "title": "A crash loses only a tail", "statement": "Whenever the process ends, a new server started on the log file holds exactly what the old one held after some number of its first requests, and that number counts every request whose record had reached the file; at most the last record and one 4096 byte buffer are lost. (False with LTRIM, SPOP, strings that are not UTF-8, or log writers that overtake each other.)", "quantifier": "every request history, every moment of the crash, every disk behaviour", "why_tests_cant": "quantifies over all crash points and histories", "anchors": ["pkg/db/engine.go:writeLog,BuildFromLog", "pkg/log/log.go:PackLog,ParseLog", "pkg/log/persistent.go:Write,Flush"]}
{"id": "C60", "title": "A request can be sent again", "statement": "A client that does not know whether its SET, MSET, LSET, HSET, HDEL, SADD, SREM or LREM 0 was carried out can send it again: after the request was answered, and after any other requests that do not write the keys it names, the repetition changes nothing and is answered the same, or with 0 where the answer counts changes. For every other writing command repeating can change the database again.", "quantifier": "every state, every such request, every sequence of requests in between", "why_tests_cant": "relates two executions of a request across unbounded histories", "anchors": ["pkg/db/engine.go:handleRequest", "pkg/db/db.go:ExecuteCommand", "pkg/command/command.go:NewCommand"]}
{"id": "C61", "title": "A session at the command line", "statement": "For everything a user can type: the lines entered before the input ends, a line is too long or says quit are sent one by one, and the screen shows after each prompt the server's reply to exactly the words of that line; in particular after a line storing a value under a key and any lines not writing it, a line asking for the key shows the value between quotes. If the server crashes on a line, the client reports a read error and ends there.", "quantifier": "every standard input, every database, every behaviour of Go's map order", "why_tests_cant": "composes line scanning, quoting, framing, execution and printing over unbounded sessions", "anchors": ["cmd/client/main.go:main", "cmd/client/internal/codec.go:FormatInput,FormatOutput", "pkg/protocol/reader.go:Parse", "pkg/db/engine.go:handleRequest"]}
{"id": "C62", "title": "RESP on the wire", "statement": "The bytes written for an object are exactly its form in the documented protocol (RESP version 2), every such form sent by any other client or server is read as that object whatever follows, and the language the reader accepts is exactly known: it additionally takes single line feeds inside lines, signs and leading zeros in numbers, any two bytes after a bulk string and negative element counts.", "quantifier": "every object, every byte stream", "why_tests_cant": "the accepted language is infinite; equality of two languages", "anchors": ["pkg/protocol/resp.go:String,Byte", "pkg/protocol/reader.go:readToken,readString,readError,readInteger,readArray,readObject"]}
{"id": "C63", "title": "A replica takes over a state of its master", "statement": "Whatever happens while a replica is served \u2013 requests going on, other replicas, connections breaking, disks failing, transfers cut short \u2013 a replica started with an empty file holds exactly what its master held after some number of its requests, including, if the replica saw no error, every request answered before the master wrote its log out for it apart from at most one; if the master is at rest, exactly what the master holds. A replica with a file of its own holds what its own requests followed by the master's lead to. (That a replica always holds what its master holds is false: a copied file doubles lists, restarting undoes the replica's own writes, an unlucky moment gives it nothing although nothing failed, and a master without a file leaves it waiting.)", "quantifier": "every request history, every interleaving of engine, writers and replicas, every failure", "why_tests_cant": "interleavings of master, engine and network with unbounded histories and arbitrary failures", "anchors": ["pkg/replication/master.go:start,handleConn", "pkg/replication/replica.go:Receive", "pkg/network/server.go:syncExternal,fromMaster,fromFile", "pkg/db/engine.go:BuildFromLog,writeLog"]}
{"id": "C64", "title": "Serving a replica leaves nothing behind", "statement": "However transfers end, temporary files exist only while a replica is being served and the connection is closed when its handler returns; replicas never wait for each other, and the engine's contents are not touched. (False for the list of connections, from which failed transfers are never removed, and for the handle on the log file, which nobody closes. One failed Accept ends the service to new replicas for good.)", "quantifier": "every interleaving, every failure", "why_tests_cant": "resource leaks only show over unbounded runs with failures at every point", "anchors": ["pkg/replication/master.go:start,handleConn"]}
{"id": "C65", "title": "What a configuration starts", "statement": "Init fails exactly if the client port cannot be listened on; replicas are served exactly on the port the configuration asks for when that is usable, never on the clients' port; the contents are those of the file (of the requests logged in it, for a file a server wrote); a server can be stopped without a nil dereference exactly if it serves replicas and opened its file. (That a server asked to serve replicas does so is false: with a busy port or port 65535 it silently does not; with the default configuration a stop never flushes and can crash; a replica without a file ignores its master.)", "quantifier": "every configuration, every machine state, every file contents", "why_tests_cant": "quantifies over all configurations and what the machine offers, composed with replay of unbounded logs and all interleavings of a stop", "anchors": ["pkg/network/server.go:Init,syncExternal,stop", "pkg/db/engine.go:NewEngine,Stop", "pkg/replication/master.go:NewMaster", "pkg/common/config.go:NewConfig", "cmd/server/main.go:main"]}
{"id": "C66", "title": "Log records are protocol buffers messages", "statement": "The bytes written for a record are exactly the protobuf form of its fields; any protobuf message, whoever wrote it, is read as the record it says (last value of a field, all of a repeated one, integers modulo their size, UTF-8 required), fields of later versions and the order of fields make no difference, nothing else is accepted, and bytes are a message in one way only. A file of any contents gives the records of its complete messages in order, skipping what is no message.", "quantifier": "every record, every byte string, every file", "why_tests_cant": "the set of accepted byte strings is infinite (nested groups, redundant varints, unknown fields)", "anchors": ["pkg/log/log.go:PackLog,ParseLog,readLog", "pkg/log/log.proto:VertexLog", "pkg/log/log.pb.go:VertexLog"]}
{"id": "C67", "title": "Every request has exactly one fate", "statement": "In every interleaving a request that was read is either still on its way or has ended in exactly one of five ways: dropped before the engine, ignored because it is no array, reply lost before the response worker, reply refused by the connection, or answered. While the process lives, an executed request whose reply was not lost can still be answered by the response worker alone, and one the idle engine has not seen yet can still be executed and answered. Without new requests the server comes to rest within five steps per request, and then nothing is on its way unless the process is dead. The server never forgets a connection.", "quantifier": "every interleaving of connections, publish goroutines, engine and response worker", "why_tests_cant": "schedules; absence of silent loss is about all executions", "anchors": ["pkg/network/server.go:newConn,responseWorker,parseResponse", "pkg/db/engine.go:Start,parseRequest", "pkg/concurrency/topic.go:distributeEvent"]}
{"id": "C68", "title": "When a connection expires", "statement": "A connection is closed by the server once nothing has been read from it and nothing written to it for more than the expire time, and not earlier than the expire time after its beginning, after the last reply and after the last whole request that arrived and was not behind malformed bytes (unless the request arrives at the very instant of expiry). Bytes of a request that is not complete do not count: a client that sends all the time can be cut off in the middle of a long request. The timers of a connection pile up without bound within the expire time.", "quantifier": "every expire time, every timing of requests, replies and bytes, every order of goroutines at one instant", "why_tests_cant": "quantifies over all timings and over expire times of any length; tests wait for one short timeout", "anchors": ["pkg/network/conn.go:NewConnWithExpire,Read,Write,Close,startExpireWorker", "pkg/network/server.go:newConn"]}
{"id": "C69", "title": "What is read from a connection", "statement": "The requests read from a connection are the objects the client sent, one after the other, no byte lost, skipped or read twice; it depends only on the bytes sent, not on how the network cuts them into pieces or when they arrive. A complete request is read next whatever follows it, and the server never works forever on what has arrived. It stops reading only if nothing the client could send any more would make a request of what arrived, and then it never reads again, answers or closes; it takes the connection for finished only if the client closed its side without a whole request left.", "quantifier": "every byte stream, every way to cut it into pieces, every interleaving of arrivals and reads", "why_tests_cant": "fragmentation of unbounded streams; tests send one fragmentation", "anchors": ["pkg/network/server.go:newConn", "pkg/network/conn.go:Read", "pkg/protocol/reader.go:readObject,readToken,readBytes"]}
{"id": "C70", "title": "From bytes to bytes", "statement": "For any number of clients sending bytes in any pieces at any time: what is read from a connection are the requests its client sent, in order; what is written to it are the encoded replies to different ones of these requests and nothing else; a client that waits for each reply before sending its next request gets as its k-th reply the reply to its k-th request; and over all clients the replies are those of the abstract database asked the executed requests one after the other, in an order in which every request comes after all requests whose replies were written before it was read (linearizability).", "quantifier": "every number of clients, every byte stream and fragmentation, every interleaving of readers, publish goroutines, engine and response worker", "why_tests_cant": "linearizability over all schedules and all byte streams", "anchors": ["pkg/network/server.go:newConn,responseWorker", "pkg/network/conn.go:Read,Write", "pkg/protocol/reader.go:readObject", "pkg/db/engine.go:Start,handleRequest"]}
{"id": "C71", "title": "What the program's own log says", "statement": "A message written with one of the formatting log functions is its template with each argument in its place; it is written exactly if its level is at least the configured one (an unknown level counting as INFO, debug mode showing everything); Error and Errorf return an error with the same message even without a logger; Panic panics and Fatal exits also when the level hides the message. (False for the text of Debugf, Infof, Warnf, Panicf and Fatalf, which pass all arguments as one: it is wrong for every template and every arguments. Panic and Fatal return when there is no logger yet.)", "quantifier": "every template of texts and %s, %d, %v holes, every argument list, every level and configuration", "why_tests_cant": "quantifies over all templates and arguments; no test looks at the text of the log", "anchors": ["pkg/common/logging.go:InitLog,getLogLevel,ShutdownLog,Debugf,Infof,Warnf,Error,Errorf,Panic,Panicf,Fatal,Fatalf"]}
{"id": "C72", "title": "Commands do what they declare", "statement": "A command that declares itself as reading leaves the database as it is; a command changes nothing but the containers of its declared type under its declared keys; afterwards a list, hash or set exists exactly if it existed before or the command declares that it creates it; and the reply (or a crash) depends on nothing but the containers of the declared type under the declared keys. (False for LTRIM, which is declared as reading.)", "quantifier": "every database state, every command with arguments, every map iteration order", "why_tests_cant": "all states and all commands at once, including what does not happen to keys not named", "anchors": ["pkg/command/*.go:Keys,ShouldCreate,TargetContainerType,Type,Execute", "pkg/db/db.go:ExecuteCommand,resolveName", "pkg/container/container.go:GetOrCreateList,GetOrCreateHash,GetOrCreateSet"]}
{"id": "C73", "title": "A printed log record says what was logged", "statement": "The text printed for a log record of the server determines the record: two logged requests are printed alike only if id, time, host, name, index, arguments and raw request are the same, because quoting loses nothing and shows where each argument ends. Whatever bytes a client sends, the printed record is one line (no client can forge a line of the log), quoted strings are well-formed UTF-8 and string literals of Go that stand for the string, they contain no invisible character of Latin-1, and plain text is shown as it is.", "quantifier": "every request, every byte string, every table of printable code points", "why_tests_cant": "all byte strings including invalid UTF-8 and crafted quotes; injectivity relates all pairs of records", "anchors": ["pkg/log/log.go:FormatLog,NewLog", "pkg/util/util.go:QuoteJoin", "pkg/db/engine.go:writeLog"]}
{"id": "C74", "title": "What a request costs", "statement": "Reading a request takes stack and memory in proportion to its bytes: the depth of the recursion of the reader is the nesting of the object read and is bounded by a quarter of the bytes, and the text kept for an object is at most a constant times the bytes it was read from.", "quantifier": "every byte string, every nesting depth, every size of the stack", "why_tests_cant": "resource use as a function of input size: tests see a few small requests, the claim is about growth over all of them", "anchors": ["pkg/protocol/reader.go:readObject,readArray", "pkg/protocol/resp.go:NewRedisArray,NewBulkRedisString"]}
{"id": "C75", "title": "Nothing beyond the contract can be relied on", "statement": "Every answer the contract of the unordered commands allows can happen: each order of the fields (HKEYS, HVALS, HGETALL), of the members (SMEMBERS) and of the results of SDIFF, SINTER and SUNION, and each choice of the right number of different members (SPOP, SRANDMEMBER, with or without a count) in each order, is given under some iteration order of the Go runtime.", "quantifier": "every reachable state, every key, every enumeration, every choice of members", "why_tests_cant": "a test sees the orders one runtime happens to pick; the claim is that no order and no subset is excluded", "anchors": ["pkg/container/set.go:Members,RandomMember,Pop,Diff,Intersect,Union", "pkg/container/hash.go:Keys,Values,Entries", "pkg/command/set.go:Execute", "pkg/command/hash.go:Execute"]}
{"id": "C76", "title": "The host in the log is the first external address", "statement": "GetIP, written into every log record as its host, is the first IPv4 address outside 127.0.0.0/8 of the first network interface that is up, is no loopback and has such an address, in dotted decimal form; if there is none, if the interfaces cannot be listed, or if the addresses of an interface on the way cannot be read, it is the text unknown.", "quantifier": "every list of interfaces with every flags and addresses, including failures and IPv4 addresses in IPv6 form", "why_tests_cant": "a test machine has one configuration of interfaces", "anchors": ["pkg/util/util.go:init,GetIP", "pkg/log/log.go:NewLog"]}
{"id": "C77", "title": "What a killed server leaves behind", "statement": "A request that was received before a moment at which everything was out of the log's buffer, and whose writer had reached the file by then, is executed again by the next server however and whenever the process ends later, before everything else the next server executes. Before the first 4096 bytes of log, and as long as no replica is served, the file is what it was at the start: the number of answered requests a killed server loses has no bound (their writers need not have run), nor does waiting help: a server at rest keeps up to 4096 bytes of log in memory for ever. (That the data of a server at rest survives its being killed is therefore false.)", "quantifier": "every history, every interleaving of engine, writers and replicas served, every moment of being killed, every write failure", "why_tests_cant": "quantifies over all schedules and all moments the process can end at; a test kills at one moment of one schedule", "anchors": ["pkg/db/engine.go:Start,handleRequest,writeLog,SetFile", "pkg/log/persistent.go:Write,Flush", "pkg/replication/master.go:handleConn"]}
{"id": "C78", "title": "Restarts are invisible", "statement": "Over any number of servers run one after the other on the same file, each ended at rest with its log written out, the replies of all of them together are those of one database that is never restarted, and the next server begins with its contents. Whatever the requests were, the next server executes again, server by server, exactly the requests that leave a record. (False after a server was killed in the middle of a record: as long as the next server writes less than was missing of that record, everything it was told is forgotten by the one after it, although it ended properly.)", "quantifier": "every number of restarts, every history, every interleaving of engine and log writers, every iteration order", "why_tests_cant": "induction over restarts composed with all schedules; tests restart once at most", "anchors": ["pkg/network/server.go:fromFile,syncExternal", "pkg/db/engine.go:BuildFromLog,handleRequest,writeLog,SetFile", "pkg/log/persistent.go:Write,Flush", "pkg/log/log.go:ParseLog,PackLog"]}
{"id": "C79", "title": "From Publish to Receive", "statement": "A receiver gets exactly the publishes its subscription accepted, once each, in the order of acceptance and with the event that was published; the number a publish yields is the number of receivers that got the event or have it waiting; a subscriber whose name nobody reuses gets every event published between its subscription and its close unless its channel stays full for the whole time allowed; the events of a publisher that waits for the number keep their order (those of one that does not wait can overtake each other); and a publish never depends on what its receivers do.", "quantifier": "every number of subscribers, channels of every size, publishers, receivers and closes, every interleaving, every expiry", "why_tests_cant": "holds over all interleavings of the goroutines of topic and channels; a test shows one schedule", "anchors": ["pkg/concurrency/topic.go:Subscribe,Publish,distributeEvent", "pkg/concurrency/data_channel.go:Send,Receive,Close"]}
{"id": "C80", "title": "The event bus is transparent", "statement": "Requests and replies travel through topics, goroutines and channels. The server with all of these cannot be told apart, at any moment and with all that can still happen, from one in which each request sits in a bag from which the engine takes it or from which it disappears, and each reply in another bag in front of a queue of 100. No connection and not the engine ever waits for the bus; nothing gets stuck in it: a request that has not expired can reach a free engine and a reply that has not expired can be queued when there is room, without anything else visible happening first.", "quantifier": "every number of clients and requests, every interleaving of the goroutines of both topics, the engine, the worker and the connections, every expiry", "why_tests_cant": "weak bisimilarity of two concurrent systems: all interleavings and all continuations", "anchors": ["pkg/concurrency/topic.go:Publish,distributeEvent", "pkg/concurrency/data_channel.go:Send,Receive", "pkg/concurrency/event_bus.go:Publish", "pkg/network/server.go:newConn,responseWorker", "pkg/db/engine.go:NewEngine,Start"]}
{"id": "C81", "title": "From the bytes of the clients to the bytes of the file", "statement": "The server with its connections, its event bus, its engine, its log writers and its file looks to its clients exactly like one without bus and log, at any moment and with all that can still happen. Whatever goes on, the requests executed for the clients are, in this order, a history on which the engine and its writers behave as the properties of the log say, so that what is stored, answered, waiting to be written and in the file always belongs to one history. If in each of any number of servers run one after the other on the same file no writer is overtaken and the buffer is empty at the end, all their clients together were answered as by one database, with whose contents the next server begins; on a disk that takes all writes everything the clients see can happen this way. (That what a client was told is set is there after a restart is false: everything the clients see can also happen without one byte reaching the file.)", "quantifier": "every number of clients, all bytes they send in all pieces, every interleaving of readers, bus, engine, response worker, log writers and flushes, every disk", "why_tests_cant": "composition of all concurrent parts: all interleavings and all continuations, from the network to the disk", "anchors": ["pkg/network/server.go:newConn,responseWorker", "pkg/network/conn.go:Read,Write", "pkg/db/engine.go:Start,handleRequest,writeLog", "pkg/log/persistent.go:Write,Flush", "pkg/concurrency/topic.go:Publish"]}
{"id": "C82", "title": "The connections in the whole server", "statement": "Seen together with the lives of its connections \u2013 their timers, their closing, clients that stop reading or go away \u2013 the server does nothing to its connections that the properties of single connections do not allow, and nothing its clients can see that the properties of the server do not allow: on the wire to each client are the replies in the order they were written, at most one farewell, and pieces of texts only after the client has gone; a reply is refused only if the connection was closed or its client has gone; a connection is closed only because its timer fired or its client ended its stream; after the timer has fired at most one more request is read. Conversely everything clients can see without a refused reply can happen with all connections open.", "quantifier": "every number of clients, every interleaving of readers, bus, engine, response worker, log writers, expire workers and closings, every behaviour of clients", "why_tests_cant": "composition of the transition systems of server and connections over all interleavings", "anchors": ["pkg/network/server.go:newConn,responseWorker", "pkg/network/conn.go:NewConnWithExpire,Read,Write,Close,startExpireWorker"]}
{"id": "C83", "title": "One client's connection is no concern of another's", "statement": "Whatever other clients do or their connections go through, a request that was executed for a client that stays connected and reads can still be answered as long as the process lives. (False: if the connection the response worker is about to write to expires between the check for closed and the write, no client is ever answered again, although everybody can still connect and have commands executed. That is the only way: in every other state the reply can still be written, whatever has been closed, has expired or has gone away. While a client does not read what it is being sent, nobody else is answered either.)", "quantifier": "every reachable state of the whole server with its connections, every continuation", "why_tests_cant": "a statement about all continuations from all reachable states; the window is a few instructions wide", "anchors": ["pkg/network/server.go:responseWorker", "pkg/network/conn.go:Write,Close,startExpireWorker"]}
{"id": "C84", "title": "Stopping the whole server", "statement": "While the server is being stopped, a request that is read after its topic is gone is never executed and one that is executed after the topic of the replies is gone is never answered; once the engine has been told to stop it executes one more request at most, and once it has left nothing is executed any more and what is stored stays as it is; as long as nobody has asked for a stop nothing of what the server can do is missing; with replication a stop once begun can be completed at any moment; a server whose engine has no request can be stopped so that the log is flushed after the engine has left and every writer has written, and then everything it ever logged is in the file and the next process executes it again. (That what is stored is there after a process has exited in order is false: the main goroutine can return while another one is on its way to the flush, and then even what has long been written to the log is lost.)", "quantifier": "every number of clients and of processes one after the other, every interleaving of the stop with readers, bus, engine, response worker, log writers, connections and signals, every disk", "why_tests_cant": "composition of all concurrent parts with the shutdown: all interleavings; a test stops one server at one moment", "anchors": ["cmd/server/main.go:main", "pkg/network/server.go:Serve,Stop,stop,newConn,responseWorker", "pkg/db/engine.go:Start,Stop,writeLog", "pkg/concurrency/event_bus.go:Publish,RemoveTopic", "pkg/log/persistent.go:Flush"]}
{"id": "C85", "title": "Users at terminals share one database", "statement": "Any number of users with the command line client, beside any number of other clients, see a single database: there is an order of all executed commands, and answers a plain map of keys would give in that order, such that the reply each user sees for each line is the answer to the words of that line, no two lines share a place, and a line typed after some user has seen a reply comes after the line of that reply. On the screen are exactly the prompts and the replies to the lines typed, one each, until reading or writing fails; that happens only if the connection's timer has fired or the server has died or ended, and the client never crashes. Conversely everything that can happen at the server with clients that ask line by line can happen with users at terminals who see every reply.", "quantifier": "every number of users and of other clients, every behaviour of the others, every interleaving of clients, readers, bus, engine, response worker, log writers, expire workers and closings, every way bytes arrive in pieces", "why_tests_cant": "linearizability of the composed system of clients, network, server and database over all interleavings", "anchors": ["cmd/client/main.go:main", "cmd/client/internal/codec.go:FormatInput,FormatOutput", "pkg/network/server.go:newConn,responseWorker", "pkg/network/conn.go:Read,Write,Close", "pkg/db/engine.go:Start,handleRequest"]}
{"id": "C86", "title": "Users do not notice restarts", "statement": "Over any number of processes run one after the other on the same file, each stopped in order with its log written, what the users at the terminals of all of them see is what one database that is never stopped would show them: the answers to the words of their lines, in an order in which the lines of a later process come later and, within a process, a line typed after a reply was seen comes after the line of that reply; and the next process begins with the contents of that database. Everything that can happen in a process with clients that ask line by line, from its start through its stop, can happen with users at terminals who see every reply. (False if a process merely exits in order: a user is told OK, every writer has written, nothing has failed, the process exits, and the next process tells the user that there is no such key.)", "quantifier": "every number of processes, users and other clients, every interleaving of clients, readers, bus, engine, response worker, log writers, connections, signals and stop, every disk", "why_tests_cant": "induction over restarts composed with linearizability over all interleavings; a test restarts once with one client", "anchors": ["cmd/client/main.go:main", "cmd/server/main.go:main", "pkg/network/server.go:Serve,Stop,stop,fromFile,newConn,responseWorker", "pkg/db/engine.go:Start,Stop,BuildFromLog,writeLog", "pkg/log/persistent.go:Write,Flush"]}
{"id": "C87", "title": "Users of a replica see the database of the master", "statement": "While a process serves its users it also serves replicas, over any number of processes run one after the other on the same file. What happens to the replicas and what happens in the process is what can happen to each alone, with one log file. Whatever part of the log has reached a replica, its users see a database that was asked some first of the requests that explain what all users of the master's processes have seen, and then the requests of the replica's own users; when all of it has arrived, the lines whose replies anybody had seen before the log was flushed for this replica are among those, apart from at most one whose log writer has not been to the file. A replica that connects to a process that has nothing to do can be served to the end without anybody noticing, and its users then see everything. (That a replica which connects after a user has seen a reply and is served without any error shows it is false: the writer may not have been to the file.)", "quantifier": "every number of processes, users, replicas and other clients, every interleaving of clients, server, engine, log writers, stop and the goroutines that serve replicas, every part of the transfer that arrives, every disk", "why_tests_cant": "composition of master, replicas and users at terminals over all interleavings and all cuts of the transfer", "anchors": ["pkg/replication/master.go:start,handleConn", "pkg/replication/replica.go:Receive", "pkg/network/server.go:syncExternal,Serve,newConn,responseWorker", "pkg/db/engine.go:SetFile,Start,BuildFromLog,writeLog", "pkg/log/persistent.go:Write,Flush", "cmd/client/main.go:main"]}
{"id": "C88", "title": "In the end every request is dealt with", "statement": "In an execution that goes on for ever, in which the process is not killed and none of the goroutines on the way of the requests (the publishers and senders of both topics, the engine, the response worker) is for ever able to do something without doing anything, every request that is read is dealt with in the end: answered, refused because its connection is closed, ignored because it is not an array, or lost by one of the two topics after their timeouts. A command that neither topic loses, from a client that does not go away and whose connection nobody closes, is in the end answered, on that connection and with the reply it got. (True exactly if the response worker is not held for ever in one call of Write. It can be: when the timer of a connection fires just before the response worker resets it, or when one client stops reading while its reply is written, there are requests that are never dealt with.)", "quantifier": "every execution without end, every scheduling that forgets no goroutine, every number of clients and requests, every behaviour of clients, timers, log writers and readers", "why_tests_cant": "liveness under fairness: no finite run shows that something happens in the end or never", "anchors": ["pkg/network/server.go:newConn,responseWorker,Serve", "pkg/network/conn.go:Read,Write,Close,startExpireWorker", "pkg/db/engine.go:Start,handleRequest", "pkg/concurrency/topic.go:distributeEvent,Publish", "pkg/concurrency/data_channel.go:Send,Receive"]}
{"id": "C89", "title": "In the end everything a client sends is read, and answered", "statement": "In an execution that goes on for ever, in which the process is not killed, every object whose bytes have all arrived on a connection is read in the end, and the objects are read in the order in which they were sent, if the goroutine reading from the connection is not forgotten, nobody closes the connection, its timer does not fire and its client does not go away. It does not matter in what pieces the bytes arrive and what all others do. If moreover no goroutine on the way of the requests is forgotten, the response worker is not held for ever in one call of Write and neither topic loses one of them, every command among them is answered on that connection with the reply it got.", "quantifier": "every execution without end, every sequence of objects sent in every way in pieces, every scheduling that forgets no goroutine, every behaviour of all other clients", "why_tests_cant": "liveness under fairness from the client's bytes to its replies: no finite run shows that something happens in the end", "anchors": ["pkg/network/server.go:newConn,responseWorker,Serve", "pkg/network/conn.go:Read,Write,startExpireWorker", "pkg/protocol/reader.go:ReadObject", "pkg/db/engine.go:Start,handleRequest", "pkg/concurrency/topic.go:distributeEvent,Publish"]}
{"id": "C90", "title": "In the end what was done is on the disk", "statement": "In an execution that goes on for ever, in which the process is not killed, no goroutine that writes a record is forgotten and the disk takes what it is given, the record of every request that the engine executes is on the disk in the end, whole and as often as the request was executed, and stays there. (False: it is given to the file in the end, but the file has a buffer that nobody flushes while the server runs. A client can have been told that its value is set, and the record stays in the buffer for ever. True if replicas join again and again, because the log is flushed for each of them, and true if there is always more to log.)", "quantifier": "every execution without end, every scheduling that forgets no writer, every number of clients and requests, every order in which the writers get to the file", "why_tests_cant": "liveness under fairness: that something is never written is not seen in any finite run", "anchors": ["pkg/db/engine.go:Start,handleRequest,writeLog", "pkg/log/persistent.go:Write,Flush", "pkg/log/log.go:NewLog,PackLog", "pkg/replication/master.go:handleConn"]}
{"id": "C91", "title": "A process that is told to stop is gone in the end", "statement": "In an execution that goes on for ever, in which the server is told to stop and none of those who have a part in stopping is ever forgotten (whoever calls stop, the main goroutine, the goroutine that accepts, the response worker), the process is gone in the end. (False. It is gone exactly if the response worker stays neither in Receive, because telling it that its topic is gone took too long, nor in one call of Write, because one client does not read or the expire worker of a connection is gone. In both cases the whole shutdown sequence is done, the listener is closed, and the process is there for ever.)", "quantifier": "every execution without end, every scheduling that forgets none of those who have a part in stopping, every number of clients, requests and calls of stop, every time at which they come", "why_tests_cant": "liveness under fairness: no finite run shows that a process never ends", "anchors": ["pkg/network/server.go:Init,Serve,stop,Stop,responseWorker", "pkg/network/conn.go:Write,startExpireWorker", "pkg/concurrency/data_channel.go:Receive,Send", "pkg/concurrency/topic.go:distributeEvent", "pkg/concurrency/event_bus.go:RemoveTopic", "cmd/server/main.go:main"]}
{"id": "C92", "title": "In the end nothing is left of a connection that is not used", "statement": "In an execution that goes on for ever, in which the process is not killed, none of its goroutines is forgotten and timers run, nothing is left in the end of a connection on which nothing more arrives: its socket is closed, its expire worker and whoever was closing it have ended, the goroutine reading from it has ended, and the server has forgotten it. (False in each part. The socket is closed and the workers have ended exactly if the farewell is not held for ever by a client that does not read; such a client keeps a connection open whose timer has long fired. If so, the goroutine reading has ended too, or it waits for ever for the expire worker, which has left; it has always ended if the client ended its stream. The entry in the table of the clients is there for ever.)", "quantifier": "every execution without end, every scheduling that forgets no goroutine, every number of connections and requests, every time at which the timer fires, every behaviour of the client", "why_tests_cant": "liveness under fairness: a leak of a goroutine or of a socket is not seen in any finite run", "anchors": ["pkg/network/conn.go:NewConnWithExpire,Read,Write,Close,startExpireWorker", "pkg/network/server.go:newConn,responseWorker"]}
{"id": "C93", "title": "Nobody at a terminal waits for ever", "statement": "In an execution that goes on for ever, whoever has typed a line into the command line client gets in the end the reply or an error: the reply to the line is shown, or reading it fails, and then because the timer of the connection has fired or the server has died or ended. This needs only that the client itself is not forgotten and reads, that what it sends arrives, and that, while the process is there, those who close the connection are not forgotten and its timer runs; whatever holds the engine, the topics or the response worker, the user is released. If moreover the process lives, none of its goroutines is forgotten, the response worker is not held for ever, the connection is left alone and neither topic loses the request or the reply, the reply is shown.", "quantifier": "every execution without end, every number of users and of other clients, every scheduling that forgets none of those named, every way bytes arrive in pieces", "why_tests_cant": "liveness under fairness of clients, network and server together: no finite run shows that a user does not wait for ever", "anchors": ["cmd/client/main.go:main", "pkg/network/conn.go:Read,Write,Close,startExpireWorker", "pkg/network/server.go:newConn,responseWorker", "pkg/db/engine.go:Start,handleRequest", "pkg/concurrency/topic.go:distributeEvent,Publish"]}
{"id": "C94", "title": "Servers that are started get up in the end", "statement": "A server that is started and not killed serves its clients in the end, whichever server it is to replicate from. (False. A server listens on its ports before it asks its master but accepts connections only after it has got the whole log from it, so servers that are each other's masters in a circle, or a server that is its own master, find a master that lets them in and never answers: none of them ever gets up, in no execution. What holds: in an execution that goes on for ever in which nobody with a part in the start is forgotten, a server that stays gets up exactly if it does not belong to a set of servers each of which waits for ever for another one of the set or for a master whose accept loop has ended; so every server gets up if there is no endless chain of masters and no accept loop fails. A replica that is let in is served completely by its master, or given up, exactly if it does not stop taking what is sent.)", "quantifier": "every number of servers and every arrangement of masters, every execution without end, every order in which they are started, killed and started again, every scheduling that forgets none of those who have a part in it", "why_tests_cant": "a deadlock between processes: liveness over all arrangements of servers and all orders in which they start", "anchors": ["pkg/network/server.go:Init,syncExternal,fromMaster,Serve", "pkg/db/engine.go:NewEngine,Start", "pkg/replication/master.go:NewMaster,start,handleConn", "pkg/replication/replica.go:Receive"]}
{"id": "C95", "title": "What a server takes from its master is passed on", "statement": "A server that has taken the contents of its master over at its start passes them on: whoever is started with an empty file as its replica, while it has nothing to do and has written out its log, answers GET as it does. (False. Executing the master's log again is not logged, so what a server took from its master is in no file: its own replicas never get any of it, and it is gone when the server is started again without its master. A replica takes exactly, or nothing if it reports an error, what its master itself was asked and recorded in all its lives up to some point, whatever the master held when it was started.)", "quantifier": "every request history of the server in this life and in earlier ones, everything it may have taken from others, every own file of the replica, every schedule of the engine, its writers and the serving of replicas, every part of what is sent that arrives", "why_tests_cant": "needs three servers over several lives and all interleavings of serving a replica with requests and log writers", "anchors": ["pkg/network/server.go:syncExternal,fromMaster,fromFile", "pkg/db/engine.go:BuildFromLog,handleRequest,writeLog", "pkg/replication/master.go:handleConn", "pkg/replication/replica.go:Receive"]}
{"id": "C96", "title": "Stopping a master is safe and final", "statement": "Whatever replicas do while a master is stopped, the process is not ended by the Go runtime, and once stop has returned no replica has an open connection and none is served any more. (False in both parts. Stop locks the mutex of the connection map and unlocks it before it goes through the map, so a replica that connects or finishes meanwhile ends the whole process with a concurrent map iteration and map write; and neither the listener is closed nor the loop told, so whoever connects later is served as before. What holds: goroutines serving replicas never meet in the map; the process is ended exactly when stop asks for the next entry in the middle of a change of the map, so never if no change begins between the unlocking and the end; and every connection that was in the map when stop began to go through it is closed, unless it was taken out or replaced.)", "quantifier": "every number of replicas, every interleaving of their registration and removal with stop, every order in which the map gives its entries, every reuse of addresses", "why_tests_cant": "a race of a few instructions: depends on the exact interleaving of goroutines and on all orders of a map", "anchors": ["pkg/replication/master.go:start,stop,handleConn,NewMaster", "pkg/db/engine.go:Stop"]}
{"id": "C97", "title": "What users build on single commands", "statement": "Users at command line clients can build on single commands what users of Redis build on them, however many other clients there are and however their requests interleave. Tickets: if nothing but INCR is done to a key, no two lines ever get the same number from it (unless there are 2^64 requests); if the key held a number, every INCR gives a larger one than those answered before it was typed, and in the end the key holds the first number and one for every INCR executed. A queue: if nothing but RPUSH and LPOP is done to a list, everything put in is handed out at most once, in the order in which it was put in, what one RPUSH puts in stays together, whoever finds the list empty can be sure that everything whose RPUSH was answered before was handed out, and what was not handed out is still there. A lock: if nothing but SADD and SREM of one element is done to a set, and SREM only by users who have the lock, then at most one user has it.", "quantifier": "every number of users and of other clients, every history of the server and its clients, every stored database, every interleaving, every length of the run", "why_tests_cant": "mutual exclusion and exactly-once delivery over all interleavings of network, parser, topics, engine and clients; a test sees a few schedules", "anchors": ["pkg/db/db.go:ExecuteCommand", "pkg/db/engine.go:Start,handleRequest", "pkg/command/global.go:incrCommand", "pkg/command/list.go:rpushCommand,lpopCommand", "pkg/command/set.go:saddCommand,sremCommand", "cmd/client/main.go:main"]}
{"id": "C98", "title": "What users build on single commands outlasts restarts", "statement": "What users build on single commands holds over any number of processes that run one after the other on the same file. Tickets: if from some process on nothing but INCR is done to a key, no two lines get the same number from it, whichever processes they were typed to (unless there are 2^64 requests). A queue: if nothing but RPUSH and LPOP is ever done to a list, everything put in is handed out at most once over all processes, in the order in which it was put in, whoever finds the list empty can be sure that everything whose RPUSH was answered before, in this process or an earlier one, was handed out, and the next process begins with what was not handed out. A value: if nothing but SET is ever done to write a key, GET shows in every process the value last set, whichever process it was set in, and in real time as in one process. A row of values: if nothing but one MSET of all of them ever writes some keys, MGET shows in every process a row set by one MSET, whichever process it was set in, and in real time as in one process. A hash: it has one content after the other over all processes, every command that reads it shows one of them and every HSET and HDEL makes one, in real time as in one process. Likewise a list, a string and all the sets together, with all the commands that read and write them. A log: if nothing but RPUSH is ever done to write a list, the users of all processes read the same log alike. A roll: if nothing but SADD is ever done to write a set, the users of all processes read the same roll alike, and of all lines that add a name alone at most one is told that it added it. A counter: if a key is set to a number and from some process on nothing but INCR, INCRBY, DECR and DECRBY writes it, no amount is lost and none counted twice over all processes. A lock: if nothing but SADD and SREM of one element is ever done to a set, and SREM only by users who have the lock, then a lock that a user has when their process is stopped is given to nobody in later processes. Keys of one's own: if in no process anybody outside a group writes to a key that the group mentions in any of them, the users of the group see, over all processes, what they would see if only the group's requests had ever been asked, and the next process begins with the group's keys as they would then be.", "quantifier": "every number of processes, users and other clients, every history of each process, every interleaving, every length of the runs", "why_tests_cant": "exactly-once delivery over restarts and all interleavings; a test sees a few schedules and restarts when all is quiet", "anchors": ["cmd/server/main.go:main", "pkg/log/persistent.go:Write,Flush", "pkg/db/engine.go:Start,writeLog,BuildFromLog", "pkg/command/global.go:incrCommand", "pkg/command/list.go:rpushCommand,lpopCommand", "pkg/command/set.go:saddCommand,sremCommand", "cmd/client/main.go:main"]}
{"id": "C99", "title": "A key is a register", "statement": "If nothing but SET is ever done to write a string key, then whatever users and other clients do at the same time, the key has one value after the other: first the one stored at the beginning, then one for every SET executed, and the last is what is stored. Every GET a user types shows one of these values, every SET a user types makes one of its own and is told OK, and this follows real time: who types a line after somebody has seen a reply finds the value found or made there or a later one, and who sets it then makes a later one. So nobody sees an old value after anybody has seen a newer one. What is not promised is that a value can be read and written back as one step: two users who read 5 and both write back 6 leave 6.", "quantifier": "every number of users and other clients, every interleaving of their lines, readers, bus, engine, response worker and log writers, every length of the run", "why_tests_cant": "atomicity of a register in real time over all interleavings; a test sees a few schedules", "anchors": ["pkg/command/global.go:setCommand,getCommand", "pkg/db/engine.go:Start,handleRequest", "pkg/network/server.go:newConn,responseWorker", "cmd/client/main.go:main"]}
{"id": "C100", "title": "A list that is only appended to is a log everybody reads alike", "statement": "If nothing but RPUSH is ever done to write a list, then whatever users and other clients do at the same time, the list at the end is a log: it begins with what was in it at the beginning, every LLEN, LINDEX and LRANGE 0 -1 a user types finds a first part of it, every RPUSH finds its entries in it, together and at the place it was told, no two at the same place. Lines typed after somebody has seen a reply find at least what was found for it, and their own entries come after that. So of two users who read the whole list, one sees what the other sees and perhaps more after it, and never less than before.", "quantifier": "every number of users and other clients, every interleaving of their lines, readers, bus, engine, response worker and log writers, every length of the run", "why_tests_cant": "total order of appends and prefix-consistent reads in real time over all interleavings; a test sees a few schedules", "anchors": ["pkg/command/list.go:rpushCommand,llenCommand,lindexCommand,lrangeCommand", "pkg/db/engine.go:Start,handleRequest", "pkg/network/server.go:newConn,responseWorker", "cmd/client/main.go:main"]}
{"id": "C101", "title": "Users who keep to their own keys have a database of their own", "statement": "If nobody outside a group of connections writes to a key that a request of the group mentions, then the users of the group see what they would see if only the group's requests were asked of the database, one after the other and in real time, whatever others do at the same time; and the group's keys end up as they would then. In particular a user whose keys nobody else writes sees, line for line, what a private database would say to the lines they type. And users do not notice onlookers: if all others only read, whatever they read, the database ends up as it would without them.", "quantifier": "every number of users and other clients, every choice of the group, every interleaving of their lines, readers, bus, engine, response worker and log writers, every length of the run", "why_tests_cant": "quantifies over what all others do, over all schedules and all choices of keys; a test runs a few", "anchors": ["pkg/db/engine.go:Start,handleRequest", "pkg/db/db.go:ExecuteCommand", "pkg/network/server.go:newConn,responseWorker", "cmd/client/main.go:main"]}
{"id": "C102", "title": "A key that is only added to counts exactly", "statement": "If a key holds a number and nothing but INCR, INCRBY, DECR and DECRBY ever writes it, no amount is lost and none is counted twice, whoever asks for them at the same time: there is one sequence of amounts, one for each such request executed; each such line answers the first number and all amounts up to its own, GET the first number and all amounts up to when it read, lines typed after a reply was seen find everything counted that the reply had found, and in the end the key holds the first number and the sum of all amounts \u2013 modulo 2^64, and exactly if the amounts cannot leave 64 bits.", "quantifier": "every number of users and other clients, all amounts of either sign, every interleaving of lines, readers, bus, engine, response worker and log writers, every length of the run", "why_tests_cant": "quantifies over all schedules of concurrent adders and all amounts; a lost update needs a particular schedule, a wrong wrap a particular sum", "anchors": ["pkg/command/global.go:incr,decr,get", "pkg/db/engine.go:Start,handleRequest", "pkg/network/server.go:newConn,responseWorker", "cmd/client/main.go:main"]}
{"id": "C103", "title": "A set that is only added to is a roll on which every name is signed once", "statement": "If nothing but SADD is ever done to write a set, then whatever users and other clients do at the same time, what is in it at the end, in the order in which it came, is a roll that all users read alike: nothing is on it twice, and nothing that was not there at the beginning or added; every SISMEMBER (of a non-empty name), SCARD and SMEMBERS a user types finds a first part of it; every SADD finds its names there and is told how many of them were new, and these are the last it finds; lines typed after a reply was seen find all that had been found. Of all lines that add a name alone at most one is told that it added it, and none if the name was there at the beginning.", "quantifier": "every number of users and other clients, all names, every interleaving of lines, readers, bus, engine, response worker and log writers, every length of the run", "why_tests_cant": "quantifies over all schedules of concurrent adders; two clients told that they were the first need a particular schedule", "anchors": ["pkg/command/set.go:scardCommand,saddCommand,smembersCommand,sismemberCommand", "pkg/db/engine.go:Start,handleRequest", "pkg/network/server.go:newConn,responseWorker", "cmd/client/main.go:main"]}
{"id": "C104", "title": "Keys that are only set together are never seen half set", "statement": "If nothing but one MSET of all of them ever writes any of some distinct keys, then whatever users and other clients do at the same time the keys have one row of values after the other, one more for every such MSET executed, and the last is what they have at the end: every MGET of some of the keys and every GET of one that a user types shows one of these rows, never half of one and half of another; every MSET a user is told OK for makes one row with exactly its values, no two the same one; and they follow the order in which users see replies and type lines. So keys that are alike at the beginning and only set alike are seen alike by everybody, which is not so if they are set one after the other.", "quantifier": "every number of users and other clients, all keys and values, every interleaving of lines, readers, bus, engine, response worker and log writers, every length of the run", "why_tests_cant": "quantifies over all schedules of concurrent readers and writers; a half-set row is seen only if a reader comes between two writes", "anchors": ["pkg/command/global.go:msetCommand,mgetCommand,getCommand", "pkg/db/engine.go:Start,handleRequest", "pkg/network/server.go:newConn,responseWorker", "cmd/client/main.go:main"]}
{"id": "C105", "title": "What many users see of a hash is one content after the other", "statement": "Whatever users and other clients do at the same time, a hash has one content after the other, one more for every HSET with fields and every HDEL executed, the first is what was in it at the beginning and the last what is in it at the end. Every HGET, HEXISTS, HSTRLEN, HMGET, HLEN, HGETALL, HKEYS and HVALS a user types shows one of these contents and all of its reply from the same one; every HSET and HDEL makes the next one, all of its fields at once and nothing else, and is told how many of its fields were new or had been there; no two make the same one, and they follow the order in which users see replies and type lines. So fields that are only set together are never seen half set.", "quantifier": "every number of users and other clients, all fields and values, every interleaving of lines, readers, bus, engine, response worker and log writers, every length of the run", "why_tests_cant": "quantifies over all schedules of concurrent readers and writers; a half-written hash is seen only if a reader comes between two fields", "anchors": ["pkg/command/hash.go:hsetCommand,hdelCommand,hgetCommand,hmgetCommand,hexistsCommand,hlenCommand,hstrlenCommand,hgetallCommand,hkeysCommand,hvalsCommand", "pkg/container/hash.go", "pkg/db/engine.go:Start,handleRequest", "pkg/network/server.go:newConn,responseWorker", "cmd/client/main.go:main"]}
{"id": "C106", "title": "What every command executed keeps, nobody sees broken", "statement": "If something holds of the database at the beginning and each of the commands that are ever executed keeps it, then it holds at the end, and every line a user types is answered as from a database of which it holds, whatever users and other clients do at the same time. So a key that holds a number, and is only set to numbers, added to and subtracted from, always holds a number: every GET shows one, and every INCRBY or DECRBY of a number is told a number and never an error.", "quantifier": "every statement about the database, every number of users and other clients, all commands, every interleaving of lines, readers, bus, engine, response worker and log writers, every length of the run", "why_tests_cant": "quantifies over all statements about the database and all schedules of concurrent clients", "anchors": ["pkg/db/engine.go:Start,handleRequest", "pkg/command/global.go:setCommand,getCommand,incrCommand,decrCommand", "pkg/network/server.go:newConn,responseWorker", "cmd/client/main.go:main"]}
{"id": "C107", "title": "What many users see of a list, a string and the sets is one content after the other", "statement": "Whatever users and other clients do at the same time, a list, a string, and all the sets together have one content after the other: one more for every command that writes there, the first is what was there at the beginning and the last what is there at the end. Every command a user types that reads there (LLEN, LINDEX, LRANGE; GET, STRLEN, EXISTS of one key, GETRANGE, MGET; SCARD, SISMEMBER, SMEMBERS, SRANDMEMBER, SDIFF, SINTER, SUNION) shows one of these contents, and all of its reply comes from the same one; every command that writes there (LPUSH, RPUSH, LPOP, RPOP, LSET, LREM, LTRIM, LINSERT; SET, MSET, APPEND, INCR, DECR; SADD, SREM, SPOP) makes the next one from the one before it and is answered from that one; no two make the same one, and they follow the order in which users see replies and type lines. So a union or a difference of several sets is never taken of sets at different moments.", "quantifier": "every number of users and other clients, all keys, values and elements, every mixture of commands, every interleaving of lines, readers, bus, engine, response worker and log writers, every length of the run", "why_tests_cant": "quantifies over all schedules of concurrent readers and writers and all mixtures of commands; a reply put together from two contents is seen only if a writer comes in between", "anchors": ["pkg/command/list.go", "pkg/command/global.go:setCommand,getCommand,msetCommand,mgetCommand,appendCommand,incrCommand,decrCommand", "pkg/command/set.go", "pkg/container/list.go", "pkg/container/set.go", "pkg/db/engine.go:Start,handleRequest", "pkg/network/server.go:newConn,responseWorker", "cmd/client/main.go:main"]}
{"id": "C108", "title": "What every command keeps, outlasts restarts and crashes", "statement": "If something holds of an empty database and every request ever served keeps it, then it holds of every server that starts on the log file, at every moment while it runs, and every reply is given as from a database of which it holds; and however a process ends, at any moment, with records half written, writers overtaking each other and some requests not logged at all, it holds of the next server, if that one starts. So two keys that are only set together to the same text are the same after a crash. The same as users at their terminals see it over processes that are started one after the other: one MGET of two such keys never shows two texts.", "quantifier": "every predicate on databases, all requests, any number of servers one after the other on the same file, every interleaving of engine, log writers and flushes, every moment at which a process ends, every short write", "why_tests_cant": "quantifies over all invariants, all histories and all moments of a crash; a test can only look at some crashes of some histories", "anchors": ["pkg/db/engine.go:Start,handleRequest,writeLog,BuildFromLog", "pkg/log/log.go:PackLog,ParseLog,readLog", "pkg/log/persistent.go:Write,Flush", "cmd/server/main.go:main"]}
{"id": "C109", "title": "A server started on any log executes what it can read and skips the rest", "statement": "Whatever records a server finds in its log file, whoever wrote them and whatever is in them, it executes those that ask for a command, one after the other, each in the database whose number it has and with those arguments that begin with a RESP value; it skips the others, and nothing else changes any database. It dies only where a record has an argument that kills the RESP reader or asks for a command that kills the server.", "quantifier": "all lists of records with any texts, names and database numbers, all files, all contents of the databases before, all iteration orders", "why_tests_cant": "tests replay logs the server wrote itself; this is about all records at all, among them those that arise when a cut record is joined with what follows", "anchors": ["pkg/db/engine.go:BuildFromLog,convertArguments,getOrCreateDB", "pkg/network/server.go:fromFile", "pkg/log/log.go:ParseLog", "pkg/command/command.go:NewCommand"]}
{"id": "C110", "title": "Input is refused exactly when it begins with one of five malformed forms", "statement": "What a client sends is refused as malformed exactly when it begins with a line that has a line feed at its start or two in a row, a line with none of the five RESP markers, a number that is none or does not fit in 64 bits, a bulk length below -2 or beyond the machine, or an array one of whose elements is so; whatever follows, and as soon as the last byte of that form has come. The reader waits for more exactly as long as what has come begins neither with an object, nor with a refused form, nor with what kills it. On a connection, the requests before a refused form are all read, nothing after it is, and no other input stops the reading, short of what kills the server.", "quantifier": "all byte strings, all ways to cut them into pieces and all times at which the pieces come", "why_tests_cant": "tests try a few malformed inputs; this says of every input whether it is an object, refused, deadly or unfinished", "anchors": ["pkg/protocol/reader.go:readToken,readBytes,readString,readInteger,readArray,readObject", "pkg/network/conn.go:Read"]}
