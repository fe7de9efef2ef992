import Verif.Model.StrObj
import Verif.Model.Resp
import Verif.Model.Util
import Verif.Model.SetC
import Verif.Model.Hash
import Verif.Model.LinkedList
import Verif.Model.DataMap
import Verif.Spec.Request
import Verif.Lemmas.Sample
import Verif.Lemmas.LTS
import Verif.Model.Future
import Verif.Model.DataChannel
import Verif.Model.Broadcast

/-! # The repository's own test vectors

The expected values of the Go unit tests, checked on the model. They say nothing about all inputs; they are here because the model was
written by hand, and these are the only executions of the code whose results are on record. Tests with random data or timing have no vectors;
what they sample is what the properties say for all inputs. -/

namespace Verif.Checks

/-- pkg/util/util_test.go:11-62 `TestLexicalCompare`. -/
example : [lexicalCompare b!"Zebra" b!"ant", lexicalCompare b!"Apple" b!"apple", lexicalCompare b!"orange" b!"apple", lexicalCompare b!"apple" b!"apple", lexicalCompare b!"maple" b!"morning", lexicalCompare b!"apple" b!"apple", lexicalCompare b!"applecart" b!"apple", lexicalCompare b!"face" b!"facebook"] =
    [-1, -1, 1, 0, -2, 0, 5, -4] := by decide

/-- pkg/util/util_test.go:64-135 `TestParseInt64`. -/
example : [parseInt64 b!"1", parseInt64 b!"0", parseInt64 b!"-123456789", parseInt64 b!"123123123123123123123", parseInt64 b!"", parseInt64 b!"-", parseInt64 b!"+", parseInt64 b!"+123456", parseInt64 b!"+0", parseInt64 b!"-0", parseInt64 b!"1a"] =
    [some 1, some 0, some (-123456789), none, none, none, none, some 123456, some 0, some 0, none] := by decide

/-- pkg/util/index_test.go:10-74 `TestIndexResolveRaw`. -/
example : [indexResolveRaw 0 10, indexResolveRaw 1 10, indexResolveRaw 10 10, indexResolveRaw 20 10, indexResolveRaw (-1) 10, indexResolveRaw (-10) 10, indexResolveRaw (-11) 10, indexResolveRaw 0 0, indexResolveRaw 1 0, indexResolveRaw (-1) 0] =
    [0, 1, 10, 20, 9, 0, -1, 0, 1, -1] := by decide

/-- pkg/util/index_test.go:76-140 `TestIndexResolve`. -/
example : [indexResolve 0 10, indexResolve 1 10, indexResolve 10 10, indexResolve 20 10, indexResolve (-1) 10, indexResolve (-10) 10, indexResolve (-11) 10, indexResolve 0 0, indexResolve 1 0, indexResolve (-1) 0] =
    [0, 1, -1, -1, 9, 0, -1, -1, -1, -1] := by decide

/-- pkg/util/index_test.go:144-269 `TestSliceResolveResolve`. -/
example : [sliceResolve 3 9 10, sliceResolve 3 (-4) 10, sliceResolve (-7) 9 10, sliceResolve 0 (-1) 10, sliceResolve (-6) (-4) 10, sliceResolve 7 7 10, sliceResolve 3 10 10, sliceResolve (-3) (-1) 16, sliceResolve 10 100 16, sliceResolve (-10) 0 10, sliceResolve 20 30 10, sliceResolve (-19) (-11) 10, sliceResolve 10 5 10, sliceResolve (-2) (-3) 10, sliceResolve (-1) 0 10] =
    [(3, 9), (3, 6), (3, 9), (0, 9), (4, 6), (7, 7), (3, 9), (13, 15), (10, 15), (0, 0), (-1, -1), (-1, -1), (-1, -1), (-1, -1), (-1, -1)] := by decide

/-- pkg/util/pipeline_test.go:48-56 `simpleAdd`; the context is the map's number. -/
def simpleAdd : Handler Int Unit := fun n => .ok (n + 1, none)

/-- pkg/util/pipeline_test.go:12-27 `TestPipelineSuccess`. -/
example : runPipeline [simpleAdd, simpleAdd, simpleAdd, simpleAdd, simpleAdd] 0 = .ok (5, none) := rfl

/-- pkg/util/pipeline_test.go:29-46 `TestPipelineFail`. -/
example : runPipeline [simpleAdd, simpleAdd, simpleAdd, fun n => .ok (n, some ()), simpleAdd] 0 = .ok (3, some ()) := rfl

/-- The payload of pkg/protocol/resp_test.go:60-64 `TestComplexBulkString`. -/
def payload : Bytes :=
  [36, 49, 57, 56, 13, 10, 77, 99, 112, 74, 120, 81, 83, 97, 111, 72, 104, 103, 76, 98, 65, 115, 100, 80, 84, 82, 106, 71, 70, 67, 90, 113,
    114, 119, 108, 69, 105, 118, 110, 73, 117, 75, 107, 102, 79, 86, 89, 122, 87, 68, 78, 88, 109, 121, 85, 101, 116, 66, 13, 10, 13, 10,
    13, 12, 32, 10, 9, 11, 13, 10, 13, 10, 94, 124, 44, 33, 37, 35, 96, 58, 95, 60, 42, 45, 61, 63, 59, 36, 91, 92, 38, 46, 62, 34, 40,
    126, 43, 93, 39, 47, 125, 123, 41, 64, 13, 10, 13, 10, 69, 84, 98, 103, 67, 111, 82, 99, 88, 79, 87, 101, 122, 73, 72, 75, 120, 109,
    81, 113, 86, 118, 104, 65, 68, 121, 71, 90, 74, 112, 108, 117, 102, 78, 70, 106, 97, 107, 100, 89, 80, 114, 119, 77, 76, 115, 66, 105,
    116, 85, 83, 110, 13, 10, 13, 10, 95, 41, 126, 38, 33, 92, 46, 91, 60, 61, 42, 93, 94, 62, 43, 59, 36, 37, 40, 47, 39, 64, 44, 125, 34,
    123, 58, 45, 124, 35, 96, 63, 13, 10, 13, 10, 13, 10, 32, 9, 13, 10]

/-- pkg/protocol/resp_test.go:72-81 `TestArray`. -/
def mixed : Resp := .array [.simple b!"OK", .error b!"Error Message", .int 1000, .bulk b!"Hello \rWorld!\n"]

/-- pkg/protocol/resp_test.go:83-91 `TestNullInArray`. -/
def holed : Resp := .array [.bulk b!"foo", .nullBulk, .bulk b!"bar"]

/-- pkg/protocol/resp_test.go:93-106 `TestNestedArray`. -/
def nested : Resp := .array [.array [.array [.array [.int (-1), .simple b!"OK"]]]]

/-- pkg/protocol/resp_test.go:108-147 `TestComplexArray`. -/
def everything : Resp :=
  .array [.simple b!"OK", .error b!"Error Message", .error b!"Go Error", .int 1000, .int 0, .int (-10000), .bulk [], .bulk b!"Hello \rWorld!\n",
    .bulk payload, .array [], mixed, holed, nested, .nullArray]

/-- pkg/protocol/resp_test.go:146, the expected text. -/
def everythingText : Bytes :=
  b!"*14\r\n+OK\r\n-Error Message\r\n-Go Error\r\n:1000\r\n:0\r\n:-10000\r\n$0\r\n\r\n$14\r\nHello \rWorld!\n\r\n$206\r\n" ++ payload ++
    b!"\r\n*0\r\n*4\r\n+OK\r\n-Error Message\r\n:1000\r\n$14\r\nHello \rWorld!\n\r\n*3\r\n$3\r\nfoo\r\n$-1\r\n$3\r\nbar\r\n" ++
    b!"*1\r\n*1\r\n*1\r\n*2\r\n:-1\r\n+OK\r\n*-1\r\n"

/-- pkg/protocol/resp_test.go:11-147, the objects and their texts. -/
def objects : List (Resp × Bytes) :=
  [(.simple b!"OK", b!"+OK\r\n"), (.error b!"Error Message", b!"-Error Message\r\n"), (.error b!"Go Error", b!"-Go Error\r\n"),
    (.int 1000, b!":1000\r\n"), (.int 0, b!":0\r\n"), (.int (-10000), b!":-10000\r\n"), (.bulk [], b!"$0\r\n\r\n"),
    (.bulk b!"Hello \rWorld!\n", b!"$14\r\nHello \rWorld!\n\r\n"), (.bulk payload, b!"$206\r\n" ++ payload ++ b!"\r\n"), (.array [], b!"*0\r\n"),
    (mixed, b!"*4\r\n+OK\r\n-Error Message\r\n:1000\r\n$14\r\nHello \rWorld!\n\r\n"),
    (holed, b!"*3\r\n$3\r\nfoo\r\n$-1\r\n$3\r\nbar\r\n"), (nested, b!"*1\r\n*1\r\n*1\r\n*2\r\n:-1\r\n+OK\r\n"), (everything, everythingText),
    (.nullBulk, b!"$-1\r\n"), (.nullArray, b!"*-1\r\n")]

/-- pkg/protocol/resp_test.go:11-147: every object has the expected text. -/
example : objects.all (fun p => p.1.encode == p.2) = true := by decide +kernel

/-- The text of the object that is read, if all is read. -/
def reread (s : Bytes) : Option Bytes :=
  match parse s with
  | .ok o [] => some o.encode
  | _ => none

/-- pkg/protocol/reader_test.go:12-41 `TestSuccessParses`: every text is read and gives itself back. -/
example : objects.all (fun p => reread p.2 == some p.2) = true := by decide +kernel

/-- pkg/container/string_test.go:20-44 `collisions`. -/
def collisions : List (Bytes × Bytes) :=
  [(b!"8yn0iYCKYHlIj4-BwPqk", b!"GReLUrM4wMqfg9yzV3KQ"), (b!"gMPflVXtwGDXbIhP73TX", b!"LtHf1prlU1bCeYZEdqWf"),
    (b!"pFuM83THhM-Qw8FI5FKo", b!".jPx7rOtTDteKAwvfOEo"), (b!"7mohtcOFVz", b!"c1E51sSEyx"), (b!"6a5x-VbtXk", b!"f_2k7GG-4v")]

/-- pkg/container/string_test.go:59-107 `TestStringEquals`: same hash, but not equal. -/
example : collisions.all (fun p => (Str.new p.1).hash == (Str.new p.2).hash && !Str.equals false (Str.new p.1) (Str.new p.2) &&
    !Str.equals false (Str.new p.2) (Str.new p.1)) = true := by decide +kernel

/-- pkg/container/string_test.go:46-57 `TestStringLen`: zero bytes count. -/
example : (Str.new [97, 98, 99, 100, 0, 0, 101, 102, 103, 49, 50, 51, 52, 53, 54]).len = 15 := by decide +kernel

/-- pkg/container/string_test.go:137-152 `TestStringObject`. -/
example : (Str.new b!"OK").asSimple.encode = b!"+OK\r\n" ∧ (Str.new []).asBulk.encode = b!"$-1\r\n" ∧ (Str.new b!"x").asBulk.encode = b!"$1\r\nx\r\n" := by
  decide +kernel

/-- What `GetRange` replies: the bytes, or nothing for an invalid range. -/
def rangeOf (s : Bytes) (a b : Int) : Outcome (Option Bytes) := (Str.getRange (Str.new s) a b).map fun r => r.map Str.data

/-- pkg/container/string_test.go:174-215 `TestRange`: all pairs of positions, counted from either end. -/
example : ((List.range 10).all fun a => (List.range 10).all fun b => decide (b < a) ||
    [rangeOf b!"0123456789" a b, rangeOf b!"0123456789" (a - 10) b, rangeOf b!"0123456789" a (b - 10), rangeOf b!"0123456789" (a - 10) (b - 10)].all
      (fun r => decide (r = .ok (some ((b!"0123456789".take (b + 1)).drop a))))) = true := by decide +kernel

/-- pkg/container/string_test.go:174-215 `TestRange`: the invalid ones. -/
example : rangeOf b!"0123456789" 10 5 = .ok none ∧ rangeOf b!"0123456789" (-1) (-2) = .ok none := by decide +kernel

/-- pkg/container/string_test.go:217-239 `TestRangeSpecialCase`. -/
example : rangeOf b!"This is a string" 0 3 = .ok (some b!"This") ∧ rangeOf b!"This is a string" (-3) (-1) = .ok (some b!"ing") ∧
    rangeOf b!"This is a string" 0 (-1) = .ok (some b!"This is a string") ∧ rangeOf b!"This is a string" 10 100 = .ok (some b!"string") := by
  decide +kernel

/-- pkg/container/string_test.go:241-297 `testIntOperations`, the steps with known increments. -/
def intSteps (n : Int) : Bool :=
  let s := Str.new (fmtInt n)
  let is (r : Option (Str × Int)) (m : Int) : Bool :=
    match r with
    | some (s', m') => m' == m && s'.isInt && s'.int == some m && (s'.asInt.map Resp.encode) == some (Resp.encode (.int m))
    | none => false
  s.isInt && is (s.increase 1) (n + 1) && is (s.decrease 1) (n - 1) && is (s.increase 0) n && is (s.decrease 0) n

/-- pkg/container/string_test.go:154-172 `TestStringIntOperations`, the corner cases. -/
example : [0, 1, -1].all intSteps = true := by decide +kernel

/-- pkg/container/set_test.go:152-174 `genRedisTestCase`. -/
def redisA : SetC := (SetC.add SetC.new ([b!"a", b!"b", b!"c", b!"d"].map Str.new)).1

/-- pkg/container/set_test.go:161-164. -/
def redisB : SetC := (SetC.add SetC.new ([b!"c"].map Str.new)).1

/-- pkg/container/set_test.go:166-171. -/
def redisC : SetC := (SetC.add SetC.new ([b!"a", b!"c", b!"e"].map Str.new)).1

/-- The members in order of insertion. -/
def elements (s : SetC) : List Bytes := s.map Prod.fst

/-- pkg/container/set_test.go:127-150 `TestSetDiff`, `TestSetIntersect`, `TestSetUnion`. -/
example : (elements (SetC.diff env0.ord redisA [redisB, redisC])).Perm [b!"b", b!"d"] ∧ (elements (SetC.intersect env0.ord redisA [redisB, redisC])).Perm [b!"c"] ∧
    (elements (SetC.union env0.ord redisA [redisB, redisC])).Perm [b!"a", b!"b", b!"c", b!"d", b!"e"] := by decide +kernel

/-- pkg/container/set_test.go:64-81 `TestSetCollisionEntries`. -/
example : collisions.all (fun p => let s := (SetC.add SetC.new [Str.new p.1, Str.new p.2]).1
    SetC.len s == 2 && SetC.isMember s (Str.new p.1) && SetC.isMember s (Str.new p.2) && elements s == [p.1, p.2]) = true := by decide +kernel

/-- pkg/container/hash_test.go:98-112 `TestHashCollisionKeys`. -/
example : collisions.all (fun p => let h := (HashC.setAll HashC.new [Str.new p.1, Str.new p.2] [Str.new b!"a", Str.new b!"b"]).1
    HashC.len h == 2 && (HashC.getAll h [Str.new p.1, Str.new p.2]).map (fun v => v.map Str.data) == [some b!"a", some b!"b"]) = true := by decide +kernel

/-- pkg/container/hash_test.go:18-96 `TestHashBasicOperation`: different numbers of keys and values are an error. -/
example : (HashC.setAll HashC.new [Str.new b!"a", Str.new b!"b"] [Str.new b!"b"]).2 = none := by decide +kernel

open Spec

/-- pkg/types/data_map_test.go:62-95 `testBasicOperation` on `SimpleDataMap`, as the sizes and answers it expects. -/
example : let m := GoMap.set (GoMap.set ([] : GoMap Nat) b!"a" 1) b!"c" 15
    let m' := GoMap.set (GoMap.set m b!"a" 16) b!"c" 4
    DataMap.has m b!"a" = true ∧ DataMap.get m b!"a" = some 1 ∧ DataMap.get m b!"c" = some 15 ∧ DataMap.get m' b!"a" = some 16 ∧
      DataMap.get m' b!"c" = some 4 ∧ DataMap.len (DataMap.remove (DataMap.remove m' b!"a") b!"c") = 0 := by decide +kernel

/-- pkg/concurrency/future_test.go:78-122 `TestFutureCancel`, the first half: cancel, cancel again, then `Get`, `Wait` and `WaitFor`. -/
example : ∃ s, Exec Fut.Step (Fut.new Nat) [.cancelCall 0, .cancelOk 0, .cancelAlready 0, .call 0 .inGet, .sawCancel 0, .call 0 .inWait,
    .sawCancel 0, .call 0 .inWaitFor, .sawCancel 0] s :=
  ⟨_, .cons (.cancelCall 0 rfl rfl rfl rfl) (.cons (.cancelOk 0 rfl rfl rfl) (.cons (.cancelAlready 0 rfl rfl rfl) (.cons (.call 0 .inGet rfl rfl (.inl rfl))
    (.cons (.sawCancel 0 rfl (.inl rfl) rfl) (.cons (.call 0 .inWait rfl rfl (.inr (.inl rfl))) (.cons (.sawCancel 0 rfl (.inr (.inl rfl)) rfl)
    (.cons (.call 0 .inWaitFor rfl rfl (.inr (.inr rfl))) (.one (.sawCancel 0 rfl (.inr (.inr rfl)) rfl)))))))))⟩

/-- pkg/concurrency/future_test.go:78-122 `TestFutureCancel`, the second half: cancelling a finished future. -/
example : ∃ s, Exec Fut.Step (Fut.new Nat) [.call 0 .inWait, .taskReturns 1, .runner, .runner, .waited 0, .cancelFulfilled 0, .call 0 .inGet, .pass 0,
    .got 0 (some 1)] s :=
  ⟨_, .cons (.call 0 .inWait rfl rfl (.inr (.inl rfl))) (.cons (.task 1 rfl rfl) (.cons (.decide rfl rfl rfl) (.cons (.finish rfl rfl rfl)
    (.cons (.waited 0 rfl (.inl rfl) rfl) (.cons (.cancelFulfilled 0 rfl rfl rfl) (.cons (.call 0 .inGet rfl rfl (.inl rfl))
    (.cons (.pass 0 rfl rfl rfl) (.one (.got 0 rfl rfl)))))))))⟩

/-- pkg/concurrency/future_test.go:124-171 `TestCancelAndFullfilConflict`: cancelled, then finished, then cancelled again. -/
example : ∃ s, Exec Fut.Step (Fut.new Nat) [.cancelCall 0, .cancelOk 0, .taskReturns 1, .runner, .cancelAlready 0] s ∧
    ∀ s', ¬ Fut.Step s (.cancelFulfilled 0) s' :=
  ⟨_, .cons (.cancelCall 0 rfl rfl rfl rfl) (.cons (.cancelOk 0 rfl rfl rfl) (.cons (.task 1 rfl rfl) (.cons (.late rfl rfl rfl)
    (.one (.cancelAlready 0 rfl rfl rfl))))), fun s' h => by cases h with | cancelFulfilled _ _ _ h => cases h⟩

/-- pkg/concurrency/future_test.go:173-187 `TestWaitFor`. -/
example : ∃ s, Exec Fut.Step (Fut.new Nat) [.call 0 .inWaitFor, .timeout 0, .call 0 .inWait, .taskReturns 1, .runner, .runner, .waited 0,
    .call 0 .inWaitFor, .waited 0] s :=
  ⟨_, .cons (.call 0 .inWaitFor rfl rfl (.inr (.inr rfl))) (.cons (.timeout 0 rfl rfl) (.cons (.call 0 .inWait rfl rfl (.inr (.inl rfl)))
    (.cons (.task 1 rfl rfl) (.cons (.decide rfl rfl rfl) (.cons (.finish rfl rfl rfl) (.cons (.waited 0 rfl (.inl rfl) rfl)
    (.cons (.call 0 .inWaitFor rfl rfl (.inr (.inr rfl))) (.one (.waited 0 rfl (.inr rfl) rfl)))))))))⟩

/-- pkg/concurrency/data_channel_test.go:96-118 `TestDataChannelSendAndReceiveClosed`. -/
example : ∃ s, Exec DataChan.Step (DataChan.new Nat 0) [.sendCall 0 15, .closeWon 1, .closed 1, .sendClosed 0 15, .recvClosed 2] s :=
  ⟨_, .cons (.sendCall 0 15 rfl rfl) (.cons (.closeWon 1 rfl rfl rfl) (.cons (.close 1 rfl rfl rfl) (.cons (.sendClosed 0 15 rfl rfl rfl)
    (.one (.recvClosed 2 rfl rfl rfl)))))⟩

/-- pkg/concurrency/data_channel_test.go:175-197 `TestExpiredSend`. -/
example : ∃ s, Exec DataChan.Step (DataChan.new Nat 0) [.sendCall 0 15, .expired 0 15, .closeWon 1, .closed 1, .sendCall 0 15, .sendClosed 0 15] s :=
  ⟨_, .cons (.sendCall 0 15 rfl rfl) (.cons (.expired 0 15 rfl rfl) (.cons (.closeWon 1 rfl rfl rfl) (.cons (.close 1 rfl rfl rfl)
    (.cons (.sendCall 0 15 rfl rfl) (.one (.sendClosed 0 15 rfl rfl rfl))))))⟩

/-- pkg/concurrency/broadcast_test.go:10-36 `TestBroadCast`, one goroutine before the message and one after. -/
example (m : Bytes) : ∃ s, Exec Bcast.Step (Bcast.new Bytes) [.getCall 0, .setCall 7 m, .setDone 7, .woken 0, .got 0 (some m), .getCall 1, .woken 1,
    .got 1 (some m)] s :=
  ⟨_, .cons (.getCall 0 rfl rfl) (.cons (.setCall 7 m rfl rfl) (.cons (.setDone 7 rfl rfl rfl) (.cons (.woken 0 rfl rfl rfl) (.cons (.got 0 rfl rfl)
    (.cons (.getCall 1 rfl rfl) (.cons (.woken 1 rfl rfl rfl) (.one (.got 1 rfl rfl))))))))⟩

end Verif.Checks
