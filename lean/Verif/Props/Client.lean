import Verif.Model.Client
import Verif.Spec.Client
import Verif.Props.Resp
import Mathlib.Data.List.Forall2

/-! # C52, C56 – the command line client -/

namespace Verif.Props

open Spec Client

theorem parseQuote_ok {buf q rest : Bytes} (hq : Unquoted q) : parseQuote buf (q ++ 34 :: rest) = (buf ++ q, rest, false) := by
  induction q generalizing buf with
  | nil => simp [parseQuote]
  | cons b q ih =>
    have hb : b ≠ 34 := fun e => hq (by simp [e])
    have hq' : Unquoted q := fun h => hq (by simp [h])
    simp [parseQuote, hb, ih hq']

theorem parseQuote_eof {buf q : Bytes} (hq : Unquoted q) : parseQuote buf q = ([], [], true) := by
  induction q generalizing buf with
  | nil => simp [parseQuote]
  | cons b q ih =>
    have hb : b ≠ 34 := fun e => hq (by simp [e])
    have hq' : Unquoted q := fun h => hq (by simp [h])
    simp [parseQuote, hb, ih hq']

theorem plain_tail {b : UInt8} {w : Bytes} (h : Plain (b :: w)) : b ≠ 32 ∧ b ≠ 34 ∧ Plain w :=
  ⟨fun e => h.1 (by simp [e]), fun e => h.2 (by simp [e]), fun hm => h.1 (by simp [hm]), fun hm => h.2 (by simp [hm])⟩

theorem parseString_space {buf w rest : Bytes} (hw : Plain w) : parseString buf (w ++ 32 :: rest) = (buf ++ w, rest, false) := by
  induction w generalizing buf with
  | nil => simp [parseString]
  | cons b w ih => obtain ⟨h1, h2, h3⟩ := plain_tail hw; simp [parseString, h1, h2, ih h3]

theorem parseString_eof {buf w : Bytes} (hw : Plain w) : parseString buf w = (buf ++ w, [], true) := by
  induction w generalizing buf with
  | nil => simp [parseString]
  | cons b w ih => obtain ⟨h1, h2, h3⟩ := plain_tail hw; simp [parseString, h1, h2, ih h3]

theorem parseString_quote {buf w rest : Bytes} (hw : Plain w) : parseString buf (w ++ 34 :: rest) = parseQuote [] rest := by
  induction w generalizing buf with
  | nil => simp [parseString]
  | cons b w ih => obtain ⟨h1, h2, h3⟩ := plain_tail hw; simp [parseString, h1, h2, ih h3]

theorem keep_eq (w : Bytes) : (if w ≠ [] then [w] else []) = keep w := by
  unfold keep; by_cases h : w = [] <;> simp [h]

theorem inputLoop_words {line : Bytes} {ws : List Bytes} (h : Words line ws) (f : Nat) (hf : line.length < f) : inputLoop f line = .ok ws := by
  induction h generalizing f with
  | last hw =>
    obtain ⟨f, rfl⟩ : ∃ g, f = g + 1 := ⟨f - 1, by omega⟩
    simp only [inputLoop, parseString_eof hw, keep_eq, List.nil_append, if_true]
  | space hw _ ih =>
    obtain ⟨f, rfl⟩ : ∃ g, f = g + 1 := ⟨f - 1, by omega⟩
    simp only [List.length_append, List.length_cons] at hf
    simp only [inputLoop, parseString_space hw, keep_eq, List.nil_append, ih f (by omega)]
    rfl
  | quoted hg hq _ ih =>
    obtain ⟨f, rfl⟩ : ∃ g, f = g + 1 := ⟨f - 1, by omega⟩
    simp only [List.length_append, List.length_cons] at hf
    simp only [inputLoop, parseString_quote hg, parseQuote_ok hq, keep_eq, List.nil_append, ih f (by omega)]
    rfl
  | unclosed hg hq =>
    obtain ⟨f, rfl⟩ : ∃ g, f = g + 1 := ⟨f - 1, by omega⟩
    simp only [inputLoop, parseString_quote hg, parseQuote_eof hq, keep_eq, List.nil_append]
    rfl

theorem split_at (p : UInt8 → Bool) (l : Bytes) : (∀ b ∈ l, p b = false) ∨ ∃ a b c, l = a ++ b :: c ∧ (∀ x ∈ a, p x = false) ∧ p b = true := by
  induction l with
  | nil => exact .inl (by simp)
  | cons x l ih =>
    cases hx : p x
    · rcases ih with h | ⟨a, b, c, rfl, h1, h2⟩
      · exact .inl (by simpa [hx] using h)
      · exact .inr ⟨x :: a, b, c, rfl, by simpa [hx] using h1, h2⟩
    · exact .inr ⟨[], x, l, rfl, by simp, hx⟩

theorem words_total (line : Bytes) : ∃ ws, Words line ws := by
  generalize hn : line.length = n
  induction n using Nat.strongRecOn generalizing line with
  | ind n ih =>
    have pl : ∀ a : Bytes, (∀ x ∈ a, (x == 32 || x == 34) = false) → Plain a := fun a h =>
      ⟨fun hm => by simpa using h _ hm, fun hm => by simpa using h _ hm⟩
    have uq : ∀ a : Bytes, (∀ x ∈ a, (x == 34) = false) → Unquoted a := fun a h hm => by simpa using h _ hm
    rcases split_at (fun b => b == 32 || b == 34) line with h | ⟨a, b, c, rfl, h1, h2⟩
    · exact ⟨_, .last (pl _ h)⟩
    · simp only [List.length_append, List.length_cons] at hn
      simp only [Bool.or_eq_true, beq_iff_eq] at h2
      rcases h2 with rfl | rfl
      · obtain ⟨ws, hw⟩ := ih c.length (by omega) c rfl
        exact ⟨_, .space (pl _ h1) hw⟩
      · rcases split_at (fun b => b == 34) c with h | ⟨q, b, c, rfl, h3, h4⟩
        · exact ⟨_, .unclosed (pl _ h1) (uq _ h)⟩
        · simp only [beq_iff_eq] at h4
          subst h4
          simp only [List.length_append, List.length_cons] at hn
          obtain ⟨ws, hw⟩ := ih c.length (by omega) c rfl
          exact ⟨_, .quoted (pl _ h1) (uq _ h3) hw⟩

/-- C52: the client can send any line, and what it sends is the array of the line's words as bulk strings. -/
theorem C52_sent (line : Bytes) : ∃ ws, Words line ws ∧ formatInput line = .ok (Resp.array (ws.map .bulk)).encode := by
  obtain ⟨ws, hw⟩ := words_total line
  refine ⟨ws, hw, ?_⟩
  rw [formatInput, inputLoop_words hw _ (by omega)]

/-- C52: a line has one list of words. -/
theorem C52_words_unique {line : Bytes} {ws ws' : List Bytes} (h : Words line ws) (h' : Words line ws') : ws = ws' := by
  have a := inputLoop_words h (line.length + 1) (by omega)
  rw [inputLoop_words h' (line.length + 1) (by omega)] at a
  exact (Outcome.ok.inj a).symm

theorem words_bounds {line : Bytes} {ws : List Bytes} (h : Words line ws) :
    ws.length ≤ line.length ∧ ∀ w ∈ ws, w.length ≤ line.length ∧ w ≠ [] ∧ Unquoted w := by
  have kl : ∀ w, (keep w).length ≤ w.length ∧ ∀ x ∈ keep w, x = w ∧ w ≠ [] := by
    intro w
    cases w with
    | nil => simp [keep]
    | cons b w => simp [keep]
  induction h with
  | last hw => exact ⟨(kl _).1, fun x hx => by obtain ⟨rfl, h⟩ := (kl _).2 x hx; exact ⟨Nat.le_refl _, h, hw.2⟩⟩
  | @space w rest ws hw _ ih =>
    have := (kl w).1
    simp only [List.length_append, List.length_cons]
    refine ⟨by omega, fun x hx => ?_⟩
    rcases List.mem_append.1 hx with hx | hx
    · obtain ⟨rfl, h⟩ := (kl w).2 x hx; exact ⟨by omega, h, hw.2⟩
    · have := (ih.2 x hx).1; exact ⟨by omega, (ih.2 x hx).2⟩
  | @quoted g q rest ws hg hq _ ih =>
    have := (kl q).1
    simp only [List.length_append, List.length_cons]
    refine ⟨by omega, fun x hx => ?_⟩
    rcases List.mem_append.1 hx with hx | hx
    · obtain ⟨rfl, h⟩ := (kl q).2 x hx; exact ⟨by omega, h, hq⟩
    · have := (ih.2 x hx).1; exact ⟨by omega, (ih.2 x hx).2⟩
  | unclosed => exact ⟨Nat.zero_le _, by simp⟩

/-- C52: what the client sends for a line is one array that the server reads as exactly the line's words, whatever follows. -/
theorem C52_received {line out : Bytes} (hl : line.length + 2 < 2 ^ 63) (hs : formatInput line = .ok out) (rest : Bytes) :
    ∃ ws, Words line ws ∧ parse (out ++ rest) = .ok (.array (ws.map .bulk)) rest := by
  obtain ⟨ws, hw, he⟩ := C52_sent line
  rw [he] at hs
  cases hs
  refine ⟨ws, hw, C01_roundtrip _ (.array ?_) (.array ?_ ?_) rest⟩
  · intro o ho
    obtain ⟨w, -, rfl⟩ := List.mem_map.1 ho
    exact .bulk
  · rw [List.length_map]; have := (words_bounds hw).1; omega
  · intro o ho
    obtain ⟨w, hm, rfl⟩ := List.mem_map.1 ho
    have := ((words_bounds hw).2 w hm).1
    exact .bulk (by omega)

theorem words_typed {t w rest : Bytes} {ws : List Bytes} (h : Typed t w) (hr : Words rest ws) : Words (t ++ 32 :: rest) (w :: ws) := by
  cases h with
  | plain hn hp =>
    have := Words.space hp hr
    rwa [keep, if_neg hn] at this
  | quoted hn hq =>
    have := Words.quoted (glued := []) ⟨by simp, by simp⟩ hq (Words.space (w := []) ⟨by simp, by simp⟩ hr)
    simpa [keep, hn] using this

/-- C52: words typed as they are or between quotes, with single spaces between, are sent verbatim. -/
theorem C52_verbatim {ts ws : List Bytes} (h : List.Forall₂ Typed ts ws) : Words (spaced ts) ws := by
  induction h with
  | nil => exact Words.last (w := []) ⟨by simp, by simp⟩
  | @cons t w ts ws ht hts ih =>
    cases hts with
    | nil =>
      cases ht with
      | plain hn hp => simpa [spaced, keep, hn] using Words.last hp
      | quoted hn hq =>
        have := Words.quoted (glued := []) ⟨by simp, by simp⟩ hq (Words.last (w := []) ⟨by simp, by simp⟩)
        simpa [spaced, keep, hn] using this
    | cons h1 h2 => exact words_typed ht ih

/-- C52, limits: no line makes the client send an empty word or a word with a quote in it. -/
theorem C52_limits {line : Bytes} {ws : List Bytes} (h : Words line ws) : ∀ w ∈ ws, w ≠ [] ∧ Unquoted w := fun w hw => ((words_bounds h).2 w hw).2

/-- C52, limits: text directly before a quote is dropped. -/
theorem C52_glued {g q : Bytes} (hg : Plain g) (hn : q ≠ []) (hq : Unquoted q) : Words (g ++ 34 :: (q ++ [34])) [q] := by
  have := Words.quoted hg hq (Words.last (w := []) ⟨by simp, by simp⟩)
  simpa [keep, hn] using this

/-- C52, limits: what follows a quote that is not closed is dropped, with the quote. -/
theorem C52_unclosed {ts ws : List Bytes} {q : Bytes} (h : List.Forall₂ Typed ts ws) (hq : Unquoted q) :
    Words ((ts.flatMap fun t => t ++ [32]) ++ 34 :: q) ws := by
  induction h with
  | nil => exact Words.unclosed (glued := []) ⟨by simp, by simp⟩ hq
  | cons ht _ ih => simpa using words_typed ht ih

/-- The hypotheses can be met: `SET "a b" c`. -/
example : List.Forall₂ Typed [b!"SET", b!"\"a b\"", b!"c"] [b!"SET", b!"a b", b!"c"] ∧
    spaced [b!"SET", b!"\"a b\"", b!"c"] = b!"SET \"a b\" c" :=
  ⟨.cons (.plain (by decide) (by unfold Plain; decide)) (.cons (Typed.quoted (w := b!"a b") (by decide) (by unfold Unquoted; decide))
    (.cons (.plain (by decide) (by unfold Plain; decide)) .nil)), rfl⟩

/-- The hypotheses of `C52_received` and `C52_glued` can be met. -/
example : formatInput b!"GET  \"k\"" = .ok b!"*2\r\n$3\r\nGET\r\n$1\r\nk\r\n" ∧ Plain b!"abc" ∧ Unquoted b!"def" :=
  ⟨by decide, by unfold Plain; decide, by unfold Unquoted; decide⟩

/-! ## C56 – what the client shows -/

theorem fmtNat_head (n : Nat) : ∃ c l, fmtNat n = c :: l ∧ IsDigit c := by
  obtain ⟨h1, h2, -⟩ := fmtNat_spec n
  cases h : fmtNat n with
  | nil => exact absurd h h1
  | cons c l => exact ⟨c, l, rfl, h2 c (by simp [h])⟩

theorem bulk_not_null (d : Bytes) : (Resp.bulk d).encode ≠ b!"$-1\r\n" := by
  obtain ⟨c, l, h, hc⟩ := fmtNat_head d.length
  have := (isDigit_ne_sign hc).2
  simp [Resp.encode, h, this]

theorem array_not_null (items : List Resp) : (Resp.array items).encode ≠ b!"*-1\r\n" := by
  obtain ⟨c, l, h, hc⟩ := fmtNat_head items.length
  have := (isDigit_ne_sign hc).2
  simp [Resp.encode, h, this]

theorem formatOutput_simple (d : Bytes) : formatOutput (.simple d) = 34 :: (d ++ [34]) := by
  simp [formatOutput, Resp.encode]

theorem formatOutput_bulk (d : Bytes) : formatOutput (.bulk d) = 34 :: (d ++ [34]) := by
  rw [formatOutput, if_neg (bulk_not_null d)]

theorem formatOutput_array (items : List Resp) : formatOutput (.array items) = joinLines (formatItems 0 items) := by
  rw [formatOutput, if_neg (array_not_null items)]

theorem joinLines_cons (l : Bytes) (ls : List Bytes) : ∃ t, joinLines (l :: ls) = l ++ t := by
  cases ls with
  | nil => exact ⟨[], by simp [joinLines]⟩
  | cons m ls => exact ⟨10 :: joinLines (m :: ls), rfl⟩

/-- What is shown for an array is empty or starts with a digit. -/
theorem formatOutput_array_head (items : List Resp) : (items = [] ∧ formatOutput (.array items) = []) ∨
    (items ≠ [] ∧ ∃ c l, formatOutput (.array items) = c :: l ∧ IsDigit c) := by
  rw [formatOutput_array]
  cases items with
  | nil => exact .inl ⟨rfl, rfl⟩
  | cons o os =>
    refine .inr ⟨by simp, ?_⟩
    obtain ⟨c, l, h, hc⟩ := fmtNat_head 1
    obtain ⟨t, ht⟩ := joinLines_cons (fmtNat (0 + 1) ++ b!") " ++ formatOutput o) (formatItems 1 os)
    refine ⟨c, l ++ b!") " ++ formatOutput o ++ t, ?_, hc⟩
    rw [formatItems, ht, Nat.zero_add, h]
    simp

theorem digit_ne {c : UInt8} (hc : IsDigit c) : c ≠ 34 ∧ c ≠ 40 ∧ c ≠ 83 := by
  refine ⟨?_, ?_, ?_⟩ <;> (rintro rfl; revert hc; unfold IsDigit; decide)

/-- C56: a string is shown between quotes, and nothing else looks like that. -/
theorem C56_string (o : Resp) (d : Bytes) : formatOutput o = 34 :: (d ++ [34]) ↔ o = .simple d ∨ o = .bulk d := by
  cases o with
  | simple d' => simp [formatOutput_simple]
  | bulk d' => simp [formatOutput_bulk]
  | nullBulk => simp [formatOutput, Resp.encode]
  | error m => simp [formatOutput]
  | int n => simp [formatOutput]
  | nullArray => simp [formatOutput, Resp.encode]
  | array items =>
    rcases formatOutput_array_head items with ⟨-, h⟩ | ⟨-, c, l, h, hc⟩
    · simp [h]
    · simp [h, (digit_ne hc).1]

/-- C56: the null reply is shown as `(nil)`, and nothing else is. -/
theorem C56_nil (o : Resp) : formatOutput o = b!"(nil)" ↔ o = .nullBulk := by
  cases o with
  | simple d' => simp [formatOutput_simple]
  | bulk d' => simp [formatOutput_bulk]
  | nullBulk => simp [formatOutput, Resp.encode]
  | error m => simp [formatOutput]
  | int n => simp [formatOutput]
  | nullArray => simp [formatOutput, Resp.encode]
  | array items =>
    rcases formatOutput_array_head items with ⟨-, h⟩ | ⟨-, c, l, h, hc⟩
    · simp [h]
    · simp [h, (digit_ne hc).2.1]

/-- C56: the integer shown is the integer received. -/
theorem C56_int (o : Resp) (n : Int) : formatOutput o = b!"(integer) " ++ fmtInt n ↔ o = .int n := by
  cases o with
  | simple d' => simp [formatOutput_simple]
  | bulk d' => simp [formatOutput_bulk]
  | nullBulk => simp [formatOutput, Resp.encode]
  | error m => simp [formatOutput]
  | int m =>
    simp only [formatOutput, List.append_cancel_left_eq, Resp.int.injEq]
    exact ⟨fmtInt_inj, fun h => by rw [h]⟩
  | nullArray => simp [formatOutput, Resp.encode]
  | array items =>
    rcases formatOutput_array_head items with ⟨-, h⟩ | ⟨-, c, l, h, hc⟩
    · simp [h]
    · simp [h, (digit_ne hc).2.1]

/-- C56: an error is shown with its text after `Server error: `, and nothing else looks like that. -/
theorem C56_error (o : Resp) (m : Bytes) : formatOutput o = b!"Server error: " ++ m ↔ o = .error m := by
  cases o with
  | simple d' => simp [formatOutput_simple]
  | bulk d' => simp [formatOutput_bulk]
  | nullBulk => simp [formatOutput, Resp.encode]
  | error m' => simp [formatOutput]
  | int n => simp [formatOutput]
  | nullArray => simp [formatOutput, Resp.encode]
  | array items =>
    rcases formatOutput_array_head items with ⟨-, h⟩ | ⟨-, c, l, h, hc⟩
    · simp [h]
    · simp [h, (digit_ne hc).2.2]

/-- C56: `(empty list or set)` is shown for the null array only; for an empty array, and nothing else, an empty line is shown. -/
theorem C56_empty (o : Resp) : (formatOutput o = b!"(empty list or set)" ↔ o = .nullArray) ∧ (formatOutput o = [] ↔ o = .array []) := by
  cases o with
  | simple d' => simp [formatOutput_simple]
  | bulk d' => simp [formatOutput_bulk]
  | nullBulk => simp [formatOutput, Resp.encode]
  | error m' => simp [formatOutput]
  | int n => simp [formatOutput]
  | nullArray => simp [formatOutput, Resp.encode]
  | array items =>
    rcases formatOutput_array_head items with ⟨e, h⟩ | ⟨e, c, l, h, hc⟩
    · subst e; simp [h]
    · simp [h, e, (digit_ne hc).2.1]

theorem joinLines_inj {ls ms : List Bytes} (hl : ∀ l ∈ ls, (10 : UInt8) ∉ l) (hm : ∀ l ∈ ms, (10 : UInt8) ∉ l) (nl : ls ≠ []) (nm : ms ≠ [])
    (h : joinLines ls = joinLines ms) : ls = ms := by
  have key : ∀ (a b : Bytes) (x y : Bytes), (10 : UInt8) ∉ a → (10 : UInt8) ∉ b → a ++ 10 :: x = b ++ 10 :: y → a = b ∧ x = y := by
    intro a
    induction a with
    | nil => intro b x y _ hb h; cases b with
      | nil => simpa using h
      | cons c b => simp at h; exact absurd (by simp [h.1]) hb
    | cons c a ih => intro b x y ha hb h; cases b with
      | nil => simp at h; exact absurd (by simp [h.1]) ha
      | cons e b =>
        simp only [List.cons_append, List.cons.injEq] at h
        obtain ⟨h1, h2⟩ := ih b x y (fun hm => ha (by simp [hm])) (fun hm => hb (by simp [hm])) h.2
        exact ⟨by rw [h.1, h1], h2⟩
  induction ls generalizing ms with
  | nil => exact absurd rfl nl
  | cons a ls ih =>
    cases ms with
    | nil => exact absurd rfl nm
    | cons b ms =>
      have ha := hl a (by simp)
      have hb := hm b (by simp)
      cases ls with
      | nil => cases ms with
        | nil => simpa [joinLines] using h
        | cons c ms => simp only [joinLines] at h; exact absurd (by rw [h]; simp) ha
      | cons d ls => cases ms with
        | nil => simp only [joinLines] at h; exact absurd (by rw [← h]; simp) hb
        | cons c ms =>
          simp only [joinLines] at h
          obtain ⟨h1, h2⟩ := key _ _ _ _ ha hb h
          rw [h1, ih (fun l hm => hl l (by simp [hm])) (fun l hx => hm l (by simp [hx])) (by simp) (by simp) h2]

theorem formatItems_bulk_inj (ws vs : List Bytes) (i : Nat) (h : formatItems i (ws.map .bulk) = formatItems i (vs.map .bulk)) : ws = vs := by
  induction ws generalizing vs i with
  | nil => cases vs with
    | nil => rfl
    | cons v vs => simp [formatItems] at h
  | cons w ws ih => cases vs with
    | nil => simp [formatItems] at h
    | cons v vs =>
      simp only [List.map_cons, formatItems, List.cons.injEq, List.append_cancel_left_eq, formatOutput_bulk, true_and, List.append_cancel_right_eq] at h
      rw [h.1, ih vs _ h.2]

theorem formatItems_noLF (ws : List Bytes) (i : Nat) (h : ∀ w ∈ ws, (10 : UInt8) ∉ w) : ∀ l ∈ formatItems i (ws.map .bulk), (10 : UInt8) ∉ l := by
  induction ws generalizing i with
  | nil => simp [formatItems]
  | cons w ws ih =>
    intro l hl
    simp only [List.map_cons, formatItems, List.mem_cons] at hl
    rcases hl with rfl | hl
    · rw [formatOutput_bulk]
      have hd : (10 : UInt8) ∉ fmtNat (i + 1) := by
        intro hm
        have := (fmtNat_spec (i + 1)).2.1 _ hm
        revert this; unfold IsDigit; decide
      simp [hd, h w (by simp)]
    · exact ih (i + 1) (fun w hw => h w (by simp [hw])) l hl

/-- C56: for an array of strings without line breaks, what is shown determines the array. -/
theorem C56_array {ws vs : List Bytes} (hw : ∀ w ∈ ws, (10 : UInt8) ∉ w) (hv : ∀ w ∈ vs, (10 : UInt8) ∉ w)
    (h : formatOutput (.array (ws.map .bulk)) = formatOutput (.array (vs.map .bulk))) : ws = vs := by
  cases ws with
  | nil =>
    have : formatOutput (.array (vs.map .bulk)) = [] := by rw [← h]; rfl
    have := (C56_empty _).2.1 this
    simpa using this.symm
  | cons w ws =>
    cases vs with
    | nil =>
      have : formatOutput (.array ((w :: ws).map .bulk)) = [] := by rw [h]; rfl
      have := (C56_empty _).2.1 this
      simp at this
    | cons v vs =>
      rw [formatOutput_array, formatOutput_array] at h
      refine formatItems_bulk_inj _ _ 0 (joinLines_inj (formatItems_noLF _ _ hw) (formatItems_noLF _ _ hv) ?_ ?_ h) <;> simp [formatItems]

/-- C56, limits: with line breaks it does not. -/
theorem C56_array_false : formatOutput (.array [.bulk b!"a\"\n2) \"b"]) = formatOutput (.array [.bulk b!"a", .bulk b!"b"]) := by decide

/-- The hypotheses can be met. -/
example : (∀ w ∈ [b!"a", b!"b c"], (10 : UInt8) ∉ w) ∧ formatOutput (.array ([b!"a", b!"b c"].map .bulk)) = b!"1) \"a\"\n2) \"b c\"" := by decide

end Verif.Props
