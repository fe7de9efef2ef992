import Verif.Lemmas.Resp3

/-! # C01–C06 – RESP encoding and reading -/

namespace Verif.Props

open Spec

/-! ## C01 -/

/-- C01: writing an object and reading it back from the stream gives the same object and leaves exactly the bytes that followed. -/
theorem C01_roundtrip (o : Resp) (hc : Clean o) (hs : Sized o) (rest : Bytes) :
    parse (o.encode ++ rest) = .ok o rest := parse_encode o hc hs rest

/-- C01 (sharpness): among the objects a Go program can hold, the ones that round-trip are exactly the `Clean` ones. In
particular a simple string or error round-trips iff its text has neither CRLF nor two consecutive LFs. -/
theorem C01_roundtrip_iff (o : Resp) (hs : Sized o) (rest : Bytes) :
    parse (o.encode ++ rest) = .ok o rest ↔ Clean o :=
  ⟨fun h => (parse_ok_clean h).1, fun hc => parse_encode o hc hs rest⟩

/-- C01 (simple strings): the iff instantiated. -/
theorem C01_simple_iff (d rest : Bytes) :
    parse ((Resp.simple d).encode ++ rest) = .ok (.simple d) rest ↔ LineSafe d := by
  rw [C01_roundtrip_iff _ .simple]
  exact ⟨fun h => by cases h; assumption, .simple⟩

/-- C01 (unique encodings): different objects have different bytes; no object's bytes are a proper prefix of another's. -/
theorem C01_prefix_free (o₁ o₂ : Resp) (h₁ : Clean o₁ ∧ Sized o₁) (h₂ : Clean o₂ ∧ Sized o₂) (r₁ r₂ : Bytes)
    (h : o₁.encode ++ r₁ = o₂.encode ++ r₂) : o₁ = o₂ ∧ r₁ = r₂ := by
  have a := C01_roundtrip o₁ h₁.1 h₁.2 r₁
  have b := C01_roundtrip o₂ h₂.1 h₂.2 r₂
  rw [h, b] at a
  cases a; exact ⟨rfl, rfl⟩

/-- A concrete object meeting the hypotheses: nested array, bulk with CRLF inside, empty bulk, null bulk, error, negative integer. -/
def sampleObj : Resp :=
  .array [.bulk b!"a\r\nb", .bulk [], .nullBulk, .error b!"ERR x", .int (-5), .array [], .nullArray, .simple b!"O\nK"]

theorem sampleObj_clean : Clean sampleObj := by
  refine .array ?_
  intro o ho
  simp at ho
  rcases ho with rfl | rfl | rfl | rfl | rfl | rfl | rfl | rfl
  · exact .bulk
  · exact .bulk
  · exact .nullBulk
  · exact .error (by unfold LineSafe; decide)
  · exact .int
  · exact .array (by simp)
  · exact .nullArray
  · exact .simple (by unfold LineSafe; decide)

theorem sampleObj_sized : Sized sampleObj := by
  refine .array (by simp) ?_
  intro o ho
  simp at ho
  rcases ho with rfl | rfl | rfl | rfl | rfl | rfl | rfl | rfl
  · exact .bulk (by simp)
  · exact .bulk (by simp)
  · exact .nullBulk
  · exact .error
  · exact .int (by decide) (by decide)
  · exact .array (by simp) (by simp)
  · exact .nullArray
  · exact .simple

example : parse (sampleObj.encode ++ b!"tail") = .ok sampleObj b!"tail" :=
  C01_roundtrip _ sampleObj_clean sampleObj_sized _
example : sampleObj.encode =
    b!"*8\r\n$4\r\na\r\nb\r\n$0\r\n\r\n$-1\r\n-ERR x\r\n:-5\r\n*0\r\n*-1\r\n+O\nK\r\n" := by decide
/-- The boundary is real: a simple string holding CRLF is read back as a shorter one. -/
example : parse ((Resp.simple b!"a\r\nb").encode) = .ok (.simple b!"a") b!"b\r\n" := by rfl
example : parse ((Resp.simple b!"a\n\nb").encode) = .bad := by rfl

/-! ## C02 -/

/-- C02: a stream of encoded objects is read back as exactly those objects in order, then end-of-file. `readAll n` performs at most
`n` reads. -/
theorem C02_pipelining (os : List Resp) (hc : ∀ o ∈ os, Clean o) (hs : ∀ o ∈ os, Sized o) (fuel : Nat)
    (hf : os.length < fuel) : readAll fuel (os.flatMap Resp.encode) = (os, .eof) := by
  induction os generalizing fuel with
  | nil =>
    obtain ⟨f, rfl⟩ : ∃ f, fuel = f + 1 := ⟨fuel - 1, by simp at hf; omega⟩
    have : parse [] = .eof := rfl
    simp [readAll, this]
  | cons o os ih =>
    obtain ⟨f, rfl⟩ : ∃ f, fuel = f + 1 := ⟨fuel - 1, by simp at hf; omega⟩
    simp only [List.flatMap_cons, readAll]
    rw [parse_encode o (hc o (by simp)) (hs o (by simp))]
    simp only
    rw [ih (fun x hx => hc x (by simp [hx])) (fun x hx => hs x (by simp [hx])) f (by simp at hf; omega)]

example : readAll 4 ([sampleObj, .int 7, sampleObj].flatMap Resp.encode) = ([sampleObj, .int 7, sampleObj], .eof) := by
  apply C02_pipelining
  · intro o ho; simp at ho; rcases ho with rfl | rfl | rfl <;> first | exact sampleObj_clean | exact .int
  · intro o ho; simp at ho
    rcases ho with rfl | rfl | rfl <;> first | exact sampleObj_sized | exact .int (by decide) (by decide)
  · simp

/-! ## C03 -/

/-- C03: a successful read is determined by the bytes it consumed: whatever follows them, the same object is read and exactly
those following bytes remain. -/
theorem C03_locality (s : Bytes) (o : Resp) (r : Bytes) (h : parse s = .ok o r) :
    ∃ used, s = used ++ r ∧ ∀ later, parse (used ++ later) = .ok o later := parse_local h

/-- C03: no proper prefix of an encoded object is accepted, nor rejected as malformed: the reader reports end-of-file. -/
theorem C03_truncation (o : Resp) (hc : Clean o) (hs : Sized o) (p q : Bytes) (hq : q ≠ [])
    (h : o.encode = p ++ q) : parse p = .eof := by
  have full := C01_roundtrip o hc hs []
  rw [List.append_nil, h] at full
  apply Classical.byContradiction; intro hne
  have := parse_ext q hne
  rw [full] at this
  cases hp : parse p with
  | ok o' r =>
    rw [hp] at this
    simp [ReadRes.ext] at this
    exact hq this.2.2
  | eof => exact hne hp
  | bad => rw [hp] at this; simp [ReadRes.ext] at this
  | panic => rw [hp] at this; simp [ReadRes.ext] at this
  | stuck => rw [hp] at this; simp [ReadRes.ext] at this

/-- C03: a malformed-input error, too, is final: more bytes do not change it. -/
theorem C03_error_stable (s later : Bytes) (h : parse s = .bad) : parse (s ++ later) = .bad := by
  rw [parse_ext later (by simp [h]), h]; rfl

example : parse (sampleObj.encode.take 40) = .eof :=
  C03_truncation sampleObj sampleObj_clean sampleObj_sized _ (sampleObj.encode.drop 40) (by decide)
    (List.take_append_drop 40 _).symm
example : parse b!"*1\r\n$4\r\nPING\r\n" = .ok (.array [.bulk b!"PING"]) [] := by rfl
example : parse b!"!x\r\n" = .bad := by rfl

/-! ## C04 -/

/-- C04: any object the reader accepts from any stream, re-encoded and read again, is the same object. -/
theorem C04_reencode_stable (s : Bytes) (o : Resp) (r : Bytes) (h : parse s = .ok o r) (later : Bytes) :
    parse (o.encode ++ later) = .ok o later :=
  let ⟨hc, hs⟩ := parse_ok_clean h
  C01_roundtrip o hc hs later

/-- Non-canonical input (signs, leading zeros, wrong bulk trailer, negative array length): accepted, then stable. -/
example : parse b!"*+02\r\n$01\r\naXX*-7\r\n" = .ok (.array [.bulk b!"a", .array []]) [] := by rfl
example : (Resp.array [.bulk b!"a", .array []]).encode = b!"*2\r\n$1\r\na\r\n*0\r\n" := by decide

/-! ## C05 -/

/-- The streams on which reading reaches a bulk-string header announcing length -2: at the top, or inside an array after some
complete elements. -/
inductive ReachesMinusTwo : Bytes → Prop where
  | header {d rest} : Numeral d (-2) → ReachesMinusTwo (36 :: d ++ 13 :: 10 :: rest)
  | inside {d n rest os rest'} : Numeral d n → n ≤ 2 ^ 63 - 1 → (os.length : Int) < n → ReadsSeq rest os rest' →
      ReachesMinusTwo rest' → ReachesMinusTwo (42 :: d ++ 13 :: 10 :: rest)

/-- C05 is false of the code: this stream crashes the reader. -/
theorem C05_counterexample : parse b!"*1\r\n$-2\r\n" = .panic := by rfl

theorem C05_no_panic_false : ¬ ∀ s, parse s ≠ .panic := fun h => h _ C05_counterexample

/-- C05 (exact crash condition): the reader panics exactly on the streams that reach a bulk header of length -2. -/
theorem C05_panic_iff (s : Bytes) : parse s = .panic ↔ ReachesMinusTwo s := by
  constructor
  · generalize hL : s.length = L
    induction L using Nat.strongRecOn generalizing s with
    | _ L ih =>
      intro h
      rw [parse_eq] at h
      rcases step_cases parseItems s with ⟨_, e⟩ | ⟨_, e⟩ | ⟨_, _, e⟩ | ⟨c, d, rest, rfl, h1, h2, e⟩
      · simp [e] at h
      · simp [e] at h
      · simp [e] at h
      · rw [e, stepBody_panic] at h
        rcases h with ⟨rfl, hp⟩ | ⟨rfl, n, hp, hn, hk⟩
        · exact .header (parseInt64_eq_some.1 hp).1
        · obtain ⟨os, r, hl, hr, hpan⟩ := (parseItems_panic _ _).1 hk
          have hlen : ∀ {s os r}, ReadsSeq s os r → r.length ≤ s.length := by
            intro s os r hr
            induction hr with
            | nil => exact Nat.le_refl _
            | cons h _ ih => have := parse_length h; omega
          have := hlen hr
          obtain ⟨hnum, hin⟩ := parseInt64_eq_some.1 hp
          unfold InInt64 maxInt64 at hin
          exact .inside hnum (by omega) (by omega) hr
            (ih r.length (by simp at hL; omega) r rfl hpan)
  · intro h
    induction h with
    | @header d rest hnum =>
      have hs := lineSafe_marker (c := 36) (by decide) (by decide) (lineSafe_of_noLF (numeral_noLF hnum))
      rw [parse_eq, step_token _ hs (by decide), stepBody_panic]
      exact .inl ⟨rfl, parseInt64_eq_some.2 ⟨hnum, by decide⟩⟩
    | @inside d n rest os rest' hnum hle hlt hr _ ih =>
      have hs := lineSafe_marker (c := 42) (by decide) (by decide) (lineSafe_of_noLF (numeral_noLF hnum))
      rw [parse_eq, step_token _ hs (by decide), stepBody_panic]
      refine .inr ⟨rfl, n, parseInt64_eq_some.2 ⟨hnum, ?_⟩, by omega, (parseItems_panic _ _).2 ⟨os, rest', by omega, hr, ih⟩⟩
      unfold InInt64 minInt64 maxInt64; omega

/-- C05 (partial): missing from the full claim are exactly the streams in which a `$` is directly followed by `-`; every other stream
is read without a panic. -/
theorem C05_no_panic_partial (s : Bytes) (h : ¬ b!"$-" <:+: s) : parse s ≠ .panic := by
  rw [Ne, C05_panic_iff]
  intro hr
  induction hr with
  | @header d rest hnum =>
    apply h
    obtain ⟨d', rfl⟩ : ∃ d', d = 45 :: d' := by
      generalize hv : (-2 : Int) = v at hnum
      cases hnum with
      | plain => omega
      | plus => omega
      | minus => exact ⟨_, rfl⟩
    exact ⟨[], d' ++ 13 :: 10 :: rest, by simp⟩
  | @inside d n rest os rest' _ _ _ hr _ ih =>
    apply ih
    intro hin
    apply h
    have hsuf : ∀ {s os r}, ReadsSeq s os r → r <:+ s := by
      intro s os r hr
      induction hr with
      | nil => exact List.suffix_refl _
      | cons h _ ih => obtain ⟨u, hu, _⟩ := parse_local h; exact ih.trans ⟨u, hu.symm⟩
    have : rest <:+ 42 :: d ++ 13 :: 10 :: rest := ⟨42 :: d ++ [13, 10], by simp⟩
    exact hin.trans ((hsuf hr).trans this).isInfix

example : ¬ b!"$-" <:+: b!"*1\r\n$4\r\nPING\r\n" := by decide

/-! ## C06 -/

/-- C06: a read always terminates – `2·|s|+2` nested reads always suffice, more fuel never changes the result – even if the stream
announces 2^63-1 elements. -/
theorem C06_terminates (s : Bytes) (fuel : Nat) (h : 2 * s.length + 2 ≤ fuel) :
    readObject fuel s ≠ .stuck ∧ readObject fuel s = parse s :=
  (fuel_aux s.length).1 s (Nat.le_refl _) fuel h

/-- C06: a successful read consumes at least three bytes. -/
theorem C06_progress (s : Bytes) (o : Resp) (r : Bytes) (h : parse s = .ok o r) :
    ∃ used, s = used ++ r ∧ 3 ≤ used.length := by
  obtain ⟨u, rfl, _⟩ := parse_local h
  have := parse_length h
  exact ⟨u, rfl, by simp at this; omega⟩

/-- C06: a read loop over a finite stream stops by itself after at most `|s|/3` objects. -/
theorem C06_loop (s : Bytes) (fuel : Nat) (h : s.length < fuel) :
    (readAll fuel s).2 ≠ .stuck ∧ (∀ o r, (readAll fuel s).2 ≠ .ok o r) ∧ 3 * (readAll fuel s).1.length ≤ s.length := by
  induction fuel generalizing s with
  | zero => omega
  | succ f ih =>
    cases hp : parse s with
    | ok o r =>
      have hl := parse_length hp
      obtain ⟨h1, h2, h3⟩ := ih r (by omega)
      simp only [readAll, hp]
      refine ⟨h1, h2, ?_⟩
      simp; omega
    | eof => simp [readAll, hp]
    | bad => simp [readAll, hp]
    | panic => simp [readAll, hp]
    | stuck => exact absurd hp (parse_not_stuck s)

example : parse b!"*9223372036854775807\r\n:1\r\n" = .eof := by rfl

end Verif.Props
