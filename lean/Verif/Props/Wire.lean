import Verif.Spec.Wire
import Verif.Props.Resp
import Verif.Lemmas.Decimal

/-! # C62 – the bytes on the wire -/

namespace Verif.Props

open Verif Spec

theorem fmtNat_eq (n : Nat) : fmtNat n = fmtInt (n : Int) := rfl

theorem decimal_nat {t : Bytes} {n : Nat} : Decimal t n ↔ t = fmtNat n :=
  ⟨fun h => decimal_eq h, fun h => h ▸ decimal_fmtInt (n : Int)⟩

mutual
theorem wire_written : ∀ {o : Resp} {b : Bytes}, Wire o b → OneLiner o ∧ b = o.encode
  | _, _, .simple h => ⟨.simple h, by simp [Resp.encode, Resp.crlf]⟩
  | _, _, .error h => ⟨.error h, by simp [Resp.encode, Resp.crlf]⟩
  | _, _, .int h => ⟨.int, by simp [Resp.encode, Resp.crlf, decimal_eq h]⟩
  | _, _, .bulk h => ⟨.bulk, by simp [Resp.encode, Resp.crlf, decimal_nat.1 h]⟩
  | _, _, .nullBulk => ⟨.nullBulk, rfl⟩
  | _, _, .array h hi => ⟨.array (wireAll_written hi).1, by simp [Resp.encode, Resp.crlf, decimal_nat.1 h, (wireAll_written hi).2]⟩
  | _, _, .nullArray => ⟨.nullArray, rfl⟩
theorem wireAll_written : ∀ {os : List Resp} {b : Bytes}, WireAll os b → (∀ o ∈ os, OneLiner o) ∧ b = Resp.encodeList os
  | _, _, .nil => ⟨by simp, rfl⟩
  | _, _, .cons h hs => by
    obtain ⟨h1, h2⟩ := wire_written h
    obtain ⟨h3, h4⟩ := wireAll_written hs
    exact ⟨by simpa using ⟨h1, h3⟩, by simp [Resp.encodeList, h2, h4]⟩
end

mutual
theorem written_wire : ∀ (o : Resp), OneLiner o → Wire o o.encode
  | .simple d, h => by cases h with | simple h => simpa [Resp.encode, Resp.crlf] using Wire.simple h
  | .error d, h => by cases h with | error h => simpa [Resp.encode, Resp.crlf] using Wire.error h
  | .int n, _ => by simpa [Resp.encode, Resp.crlf] using Wire.int (decimal_fmtInt n)
  | .bulk d, _ => by simpa [Resp.encode, Resp.crlf] using Wire.bulk (d := d) (decimal_nat.2 rfl)
  | .nullBulk, _ => .nullBulk
  | .array items, h => by
    cases h with
    | array h => simpa [Resp.encode, Resp.crlf] using Wire.array (decimal_nat.2 rfl) (written_wireAll items h)
  | .nullArray, _ => .nullArray
theorem written_wireAll : ∀ (os : List Resp), (∀ o ∈ os, OneLiner o) → WireAll os (Resp.encodeList os)
  | [], _ => .nil
  | o :: os, h => by
    simpa [Resp.encodeList] using WireAll.cons (written_wire o (h o (by simp))) (written_wireAll os fun x hx => h x (by simp [hx]))
end

/-- C62: what is written is the protocol's form of the object, and an object has no other form. (Objects with a line break in a simple string or
an error have none.) -/
theorem C62_written (o : Resp) (b : Bytes) : Wire o b ↔ OneLiner o ∧ b = o.encode :=
  ⟨wire_written, fun ⟨h, e⟩ => e ▸ written_wire o h⟩

theorem parse_header {c : UInt8} {t rest : Bytes} (hc : c ≠ 13) (hc' : c ≠ 10) (h : LineSafe t) :
    parse ([c] ++ t ++ [13, 10] ++ rest) = stepBody parseItems c t rest := by
  have := parse_line (rest := rest) hc hc' h
  simpa [Resp.crlf] using this

theorem isInt_safe {t : Bytes} {n : Int} (h : IsInt t n) : LineSafe t := lineSafe_of_noLF (numeral_noLF h.1)

theorem parse_taken_bulk {d t : Bytes} (x y : UInt8) (ht : IsInt t d.length) (hd : d.length + 2 < 2 ^ 63) (rest : Bytes) :
    parse (b!"$" ++ t ++ b!"\r\n" ++ d ++ [x, y] ++ rest) = .ok (.bulk d) rest := by
  rw [show b!"$" ++ t ++ b!"\r\n" ++ d ++ [x, y] ++ rest = [36] ++ t ++ [13, 10] ++ (d ++ [x, y] ++ rest) by simp,
    parse_header (by decide) (by decide) (isInt_safe ht)]
  unfold stepBody
  rw [if_neg (by decide), if_pos rfl]
  unfold readBulk
  rw [tokenBody_cons]
  simp only
  rw [isInt_iff.1 ht]
  simp only
  rw [if_neg (by omega), wrap64_of_in (by unfold InInt64 minInt64 maxInt64; omega)]
  have hr : readBytes ((d.length : Int) + 2) (d ++ [x, y] ++ rest) = .ok (d ++ [x, y]) rest := by
    unfold readBytes
    rw [if_neg (by omega), if_pos (by simp; omega)]
    have : ((d.length : Int) + 2).toNat = (d ++ [x, y]).length := by simp; omega
    rw [this, List.take_left, List.drop_left]
  rw [hr]
  simp only
  have hg : goSlice (d ++ [x, y]) 0 (d.length : Int) = some d := by
    unfold goSlice
    rw [if_pos (by simp)]
    simp
  rw [hg]

mutual
theorem taken_parse : ∀ {o : Resp} {b : Bytes}, Taken o b → ∀ rest, parse (b ++ rest) = .ok o rest
  | _, _, .simple h, rest => by rw [parse_header (by decide) (by decide) h]; simp [stepBody]
  | _, _, .error h, rest => by rw [parse_header (by decide) (by decide) h]; simp [stepBody]
  | _, _, .int h, rest => by rw [parse_header (by decide) (by decide) (isInt_safe h)]; simp [stepBody, isInt_iff.1 h]
  | _, _, .bulk x y h hd, rest => parse_taken_bulk x y h hd rest
  | _, _, .nullBulk h, rest => by
    rw [parse_header (by decide) (by decide) (isInt_safe h)]
    unfold stepBody readBulk
    rw [if_neg (by decide), if_pos rfl, tokenBody_cons]
    simp [isInt_iff.1 h]
  | _, _, .array (items := items) (t := t) (b := b) h hn hl hi, rest => by
    rw [show b!"*" ++ t ++ b!"\r\n" ++ b ++ rest = [42] ++ t ++ [13, 10] ++ (b ++ rest) by simp,
      parse_header (by decide) (by decide) (isInt_safe h)]
    simp only [stepBody, isInt_iff.1 h, if_neg hn, hl, takenAll_parse hi rest]
    simp [arrMap, ReadRes.mapR]
  | _, _, .nullArray h, rest => by rw [parse_header (by decide) (by decide) (isInt_safe h)]; simp [stepBody, isInt_iff.1 h]
theorem takenAll_parse : ∀ {os : List Resp} {b : Bytes}, TakenAll os b → ∀ rest, parseItems os.length (b ++ rest) = .ok os rest
  | _, _, .nil, rest => by simp [parseItems_zero]
  | _, _, .cons h hs, rest => by
    rw [List.length_cons, parseItems_succ, List.append_assoc, taken_parse h]
    simp [takenAll_parse hs rest, ReadRes.mapR]
end

theorem readBulk_taken {t s r : Bytes} {o : Resp} (h : readBulk (36 :: t ++ [13, 10]) s = .ok o r) :
    ∃ b, s = b ++ r ∧ Taken o (b!"$" ++ t ++ b!"\r\n" ++ b) := by
  unfold readBulk at h
  rw [tokenBody_cons] at h
  simp only at h
  split at h
  · simp at h
  · rename_i n hn
    split at h
    · rename_i e
      subst e
      simp only [ReadRes.ok.injEq] at h
      obtain ⟨rfl, rfl⟩ := h
      exact ⟨[], rfl, by simpa using Taken.nullBulk (isInt_iff.2 hn)⟩
    · split at h <;> try (simp at h; done)
      rename_i tok rest hb
      obtain ⟨h1, h2, rfl, rfl⟩ := readBytes_ok hb
      split at h <;> simp at h
      rename_i e he
      obtain ⟨h3, h4, h5, rfl⟩ := goSlice_eq_ok he
      obtain ⟨rfl, rfl⟩ := h
      have hin := parseInt64_in hn
      unfold InInt64 minInt64 maxInt64 at hin
      have hw : wrap64 (n + 2) = n + 2 ∨ wrap64 (n + 2) < 0 := by unfold wrap64; omega
      have hw2 := wrap64_in (n + 2)
      unfold InInt64 minInt64 maxInt64 at hw2
      rcases hw with hw | hw
      · rw [hw] at h1 h2 h5 hw2 ⊢
        obtain ⟨m, rfl⟩ : ∃ m : Nat, n = m := ⟨n.toNat, by omega⟩
        have hm : ((m : Int) + 2).toNat = m + 2 := by omega
        rw [hm]
        have hlen : m + 2 ≤ s.length := by omega
        refine ⟨s.take (m + 2), (List.take_append_drop _ _).symm, ?_⟩
        obtain ⟨x, y, hxy⟩ : ∃ x y, (s.drop m).take 2 = [x, y] := by
          have : ((s.drop m).take 2).length = 2 := by simp; omega
          match hq : (s.drop m).take 2 with
          | [x, y] => exact ⟨x, y, rfl⟩
          | [] => simp [hq] at this
          | [x] => simp [hq] at this
          | _ :: _ :: _ :: _ => simp [hq] at this
        have hd : ((List.take (m + 2) s).drop (0 : Int).toNat).take ((m : Int).toNat - (0 : Int).toNat) = s.take m := by
          simp [List.take_take]
        rw [hd]
        have hl : (s.take m).length = m := by simp; omega
        have hs : s.take (m + 2) = s.take m ++ [x, y] := by rw [List.take_add, hxy]
        rw [hs]
        have := Taken.bulk (d := s.take m) (t := t) x y (by rw [hl]; exact isInt_iff.2 hn) (by omega)
        simpa using this
      · omega

theorem parse_aux : ∀ L : Nat,
    (∀ s : Bytes, s.length ≤ L → ∀ o r, parse s = .ok o r → ∃ b, s = b ++ r ∧ Taken o b) ∧
    (∀ s : Bytes, s.length ≤ L → ∀ n os r, parseItems n s = .ok os r → os.length = n ∧ ∃ b, s = b ++ r ∧ TakenAll os b) := by
  intro L
  induction L using Nat.strongRecOn with
  | _ L ih =>
    have hobj : ∀ s : Bytes, s.length ≤ L → ∀ o r, parse s = .ok o r → ∃ b, s = b ++ r ∧ Taken o b := by
      intro s hs o r h
      rw [parse_eq] at h
      rcases step_cases parseItems s with ⟨_, e⟩ | ⟨_, e⟩ | ⟨rest, rfl, e⟩ | ⟨c, d, rest, rfl, h1, h2, e⟩
      · simp [e] at h
      · simp [e] at h
      · simp [e] at h
      · rw [e] at h
        have hd := (lineSafe_cons.1 h1).1
        unfold stepBody at h
        split at h
        · rename_i e; subst e
          simp only [ReadRes.ok.injEq] at h
          obtain ⟨rfl, rfl⟩ := h
          exact ⟨_, by simp, Taken.simple hd⟩
        split at h
        · rename_i e; subst e
          obtain ⟨b, rfl, hb⟩ := readBulk_taken h
          exact ⟨_, by simp, hb⟩
        split at h
        · rename_i e; subst e
          simp only [ReadRes.ok.injEq] at h
          obtain ⟨rfl, rfl⟩ := h
          exact ⟨_, by simp, Taken.error hd⟩
        split at h
        · rename_i e; subst e
          split at h <;> simp only [ReadRes.ok.injEq, reduceCtorEq] at h
          rename_i n hn
          obtain ⟨rfl, rfl⟩ := h
          exact ⟨_, by simp, Taken.int (isInt_iff.2 hn)⟩
        split at h
        · rename_i e; subst e
          split at h
          · simp at h
          · rename_i n hn
            split at h
            · rename_i e; subst e
              simp only [ReadRes.ok.injEq] at h
              obtain ⟨rfl, rfl⟩ := h
              exact ⟨_, by simp, Taken.nullArray (isInt_iff.2 hn)⟩
            · rename_i hne
              unfold arrMap ReadRes.mapR at h
              split at h <;> simp only [ReadRes.ok.injEq, reduceCtorEq] at h
              rename_i os r' he
              obtain ⟨rfl, rfl⟩ := h
              obtain ⟨hl, b, rfl, hb⟩ := (ih rest.length (by simp at hs; omega)).2 rest (Nat.le_refl _) _ _ _ he
              exact ⟨_, by simp, Taken.array (isInt_iff.2 hn) hne hl.symm hb⟩
        · simp at h
    refine ⟨hobj, ?_⟩
    intro s hs n os r h
    cases n with
    | zero =>
      simp only [parseItems_zero, ReadRes.ok.injEq] at h
      obtain ⟨rfl, rfl⟩ := h
      exact ⟨rfl, [], rfl, .nil⟩
    | succ n =>
      rw [parseItems_succ] at h
      cases ho : parse s with
      | ok o rest =>
        rw [ho] at h
        simp only at h
        have hl := parse_length ho
        cases hi : parseItems n rest with
        | ok os' r' =>
          rw [hi] at h
          simp only [ReadRes.mapR, ReadRes.ok.injEq] at h
          obtain ⟨rfl, rfl⟩ := h
          obtain ⟨h1, b, rfl, hb⟩ := (ih rest.length (by omega)).2 rest (Nat.le_refl _) n _ _ hi
          obtain ⟨b', rfl, hb'⟩ := hobj s hs _ _ ho
          exact ⟨by simp [h1], b' ++ b, by simp, .cons hb' hb⟩
        | eof => rw [hi] at h; simp [ReadRes.mapR] at h
        | bad => rw [hi] at h; simp [ReadRes.mapR] at h
        | panic => rw [hi] at h; simp [ReadRes.mapR] at h
        | stuck => rw [hi] at h; simp [ReadRes.mapR] at h
      | eof => simp [ho] at h
      | bad => simp [ho] at h
      | panic => simp [ho] at h
      | stuck => simp [ho] at h

/-- C62: exactly what is read from a stream: an object is read, with `r` left over, if and only if the stream is one of the object's accepted
forms followed by `r`. -/
theorem C62_read (s : Bytes) (o : Resp) (r : Bytes) : parse s = .ok o r ↔ ∃ b, s = b ++ r ∧ Taken o b :=
  ⟨(parse_aux s.length).1 s (Nat.le_refl _) o r, fun ⟨_, e, h⟩ => e ▸ taken_parse h r⟩

/-- C62: whatever sends objects in the protocol's form is understood, as long as the objects fit a 64-bit machine. -/
theorem C62_understood {o : Resp} {b : Bytes} (h : Wire o b) (hs : Sized o) (rest : Bytes) : parse (b ++ rest) = .ok o rest := by
  obtain ⟨h1, rfl⟩ := (C62_written o b).1 h
  refine C01_roundtrip o ?_ hs rest
  clear hs h rest
  induction h1 with
  | simple h => exact .simple (lineSafe_of_noLF h.2)
  | error h => exact .error (lineSafe_of_noLF h.2)
  | int => exact .int
  | bulk => exact .bulk
  | nullBulk => exact .nullBulk
  | array _ ih => exact .array ih
  | nullArray => exact .nullArray

/-- The hypotheses can be met: a request as any Redis client sends it. -/
example : Wire (.array [.bulk b!"SET", .bulk b!"k\r\n", .bulk b!""]) b!"*3\r\n$3\r\nSET\r\n$3\r\nk\r\n\r\n$0\r\n\r\n" := by
  rw [C62_written]
  refine ⟨.array ?_, by decide⟩
  intro o ho
  simp only [List.mem_cons, List.not_mem_nil, or_false] at ho
  rcases ho with rfl | rfl | rfl <;> exact .bulk

/-- Other forms that are taken, too. -/
example : Taken (.array [.int 7, .bulk b!"a"]) b!"*+02\r\n:007\r\n$1\r\na??" :=
  .array (isInt_iff.2 (by decide) : IsInt b!"+02" 2) (by decide) rfl
    (.cons (.int (isInt_iff.2 (by decide) : IsInt b!"007" 7)) (.cons (.bulk (d := b!"a") 63 63 (isInt_iff.2 (by decide) : IsInt b!"1" 1) (by decide)) .nil))

end Verif.Props
