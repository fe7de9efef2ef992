import Verif.Lemmas.Quote
import Verif.Lemmas.Replay
import Verif.Lemmas.Request
import Verif.Spec.Literal

/-! C73: a printed log record says what was logged. -/

namespace Verif.Props

open Verif Verif.Spec Verif.Quote

/-- What Go documents about `strconv.IsPrint` on ASCII: letters, digits, punctuation, symbols and the space, no control characters. -/
def PrintsAscii (pr : Nat → Bool) : Prop := ∀ c, c < 128 → (pr c = true ↔ 32 ≤ c ∧ c < 127)

/-- Neither a line break nor another control character of ASCII. -/
def OneLine (s : Bytes) : Prop := ∀ c ∈ s, 32 ≤ c.toNat ∧ c.toNat ≠ 127

instance (s : Bytes) : Decidable (OneLine s) := inferInstanceAs (Decidable (∀ c ∈ s, 32 ≤ c.toNat ∧ c.toNat ≠ 127))

/-- C73: quoting loses nothing, whatever bytes a string consists of. -/
theorem C73_quote (pr : Nat → Bool) {s s' : Bytes} (h : quote pr s = quote pr s') : s = s' :=
  (quote_prefix pr (t := []) (t' := []) (by rw [h])).1

theorem join_prefix (pr : Nat → Bool) (ss ss' : List Bytes) (t t' : Bytes)
    (h : quoteJoin pr ss b!"," ++ 93 :: t = quoteJoin pr ss' b!"," ++ 93 :: t') : ss = ss' ∧ t = t' := by
  have hone : ∀ (s : Bytes) (xs : List Bytes) (u : Bytes), quoteJoin pr (s :: xs) b!"," ++ 93 :: u =
      quote pr s ++ (match xs with | [] => 93 :: u | _ :: _ => 44 :: (quoteJoin pr xs b!"," ++ 93 :: u)) := by
    intro s xs u
    cases xs with
    | nil => rfl
    | cons y ys => simp [quoteJoin, join]
  induction ss generalizing ss' with
  | nil =>
    cases ss' with
    | nil => simpa [quoteJoin, join] using h
    | cons s' xs' =>
      rw [hone] at h
      simp [quoteJoin, join, quote] at h
  | cons s xs ih =>
    cases ss' with
    | nil =>
      rw [hone] at h
      simp [quoteJoin, join, quote] at h
    | cons s' xs' =>
      rw [hone, hone] at h
      obtain ⟨hs, h'⟩ := quote_prefix pr h
      subst hs
      clear h
      have h := h'
      clear h'
      cases xs with
      | nil =>
        cases xs' with
        | nil => simpa using h
        | cons y ys => simp at h
      | cons x xs =>
        cases xs' with
        | nil => simp at h
        | cons y ys =>
          simp only [List.cons.injEq, true_and] at h
          have := ih _ h
          grind

/-- C73: a quoted list shows where each of its elements ends. -/
theorem C73_list (pr : Nat → Bool) {ss ss' : List Bytes} (h : quoteJoin pr ss b!"," = quoteJoin pr ss' b!",") : ss = ss' :=
  (join_prefix pr ss ss' [] [] (by rw [h])).1

theorem comma_split {a a' r r' : Bytes} (h1 : 44 ∉ a) (h2 : 44 ∉ a') (h : a ++ 44 :: r = a' ++ 44 :: r') : a = a' ∧ r = r' := by
  induction a generalizing a' with
  | nil =>
    cases a' with
    | nil => simpa using h
    | cons c a' => simp at h h2; exact absurd h.1 h2.1
  | cons c a ih =>
    cases a' with
    | nil => simp at h h1; exact absurd h.1.symm h1.1
    | cons d a' =>
      simp only [List.mem_cons, not_or] at h1 h2
      simp only [List.cons_append, List.cons.injEq] at h
      have := ih h1.2 h2.2 h.2
      simp [h.1, this]

theorem fmtInt_noComma (n : Int) : 44 ∉ fmtInt n := by
  intro h
  rcases fmtInt_chars n 44 h with h | h
  · exact absurd h (by decide)
  · exact absurd h (by decide)

/-- C73: two records whose id, host and name have no comma are printed alike only if they are the same. -/
theorem C73_record (pr : Nat → Bool) {v v' : VLog} (h : 44 ∉ v.id ++ v.host ++ v.name) (h' : 44 ∉ v'.id ++ v'.host ++ v'.name)
    (he : formatLog pr v = formatLog pr v') : v = v' := by
  obtain ⟨id, time, host, name, index, args, raw⟩ := v
  obtain ⟨id', time', host', name', index', args', raw'⟩ := v'
  simp only [List.mem_append, not_or] at h h'
  simp only [formatLog, List.append_assoc, List.append_cancel_left_eq] at he
  obtain ⟨e1, he1⟩ := comma_split h.1.1 h'.1.1 he
  obtain ⟨e2, he2⟩ := comma_split (fmtInt_noComma _) (fmtInt_noComma _) (List.append_cancel_left (as := b!" time=") he1)
  obtain ⟨e3, he3⟩ := comma_split h.1.2 h'.1.2 (List.append_cancel_left (as := b!" host=") he2)
  obtain ⟨e4, he4⟩ := comma_split h.2 h'.2 (List.append_cancel_left (as := b!" name=") he3)
  obtain ⟨e5, he5⟩ := comma_split (fmtInt_noComma _) (fmtInt_noComma _) (List.append_cancel_left (as := b!" index=") he4)
  obtain ⟨e6, he6⟩ := join_prefix pr _ _ _ _ (List.append_cancel_left (as := b!" arguments=[") he5)
  obtain ⟨e7, -⟩ := quote_prefix pr (List.append_cancel_left (as := b!", raw_request=") he6)
  rw [e1, fmtInt_inj e2, e3, e4, fmtInt_inj e5, e6, e7]

/-! ## One line of text -/

theorem oneLine_append {s t : Bytes} (h : OneLine s) (h' : OneLine t) : OneLine (s ++ t) := by
  intro c hc
  rcases List.mem_append.1 hc with hc | hc
  · exact h c hc
  · exact h' c hc

theorem lowerhex_char {n : Nat} (h : n < 16) : 32 ≤ (lowerhex n).toNat ∧ (lowerhex n).toNat < 127 := by
  revert n; decide

theorem hexDigits_char (n r : Nat) : ∀ c ∈ hexDigits n r, 32 ≤ c.toNat ∧ c.toNat < 127 := by
  induction n with
  | zero => simp [hexDigits]
  | succ n ih =>
    intro c hc
    simp only [hexDigits, List.mem_cons] at hc
    rcases hc with rfl | hc
    · exact lowerhex_char (by omega)
    · exact ih c hc

theorem hexEscape_char (x : UInt8) (hx : 32 ≤ x.toNat ∧ x.toNat < 127) (n r : Nat) :
    ∀ c ∈ [92, x] ++ hexDigits n r, 32 ≤ c.toNat ∧ c.toNat < 127 := by
  intro c hc
  simp only [List.cons_append, List.nil_append, List.mem_cons] at hc
  rcases hc with rfl | rfl | hc
  · decide
  · exact hx
  · exact hexDigits_char n r c hc

theorem utf8Encode_oneLine {r : Nat} (h : 32 ≤ r ∧ r ≠ 127) (hr : Scalar r) : OneLine (utf8Encode r) := by
  have := hr.1
  intro c hc
  unfold utf8Encode at hc
  split at hc
  · simp only [List.mem_singleton] at hc
    subst hc; simp only [UInt8.toNat_ofNat']; omega
  split at hc
  · simp only [List.mem_cons, List.not_mem_nil, or_false] at hc
    rcases hc with rfl | rfl <;> simp only [UInt8.toNat_ofNat'] <;> omega
  split at hc
  · simp only [List.mem_cons, List.not_mem_nil, or_false] at hc
    rcases hc with rfl | rfl | rfl <;> simp only [UInt8.toNat_ofNat'] <;> omega
  · simp only [List.mem_cons, List.not_mem_nil, or_false] at hc
    rcases hc with rfl | rfl | rfl | rfl <;> simp only [UInt8.toNat_ofNat'] <;> omega

/-- What is written for a code point is printable ASCII or the code point itself. -/
theorem escapeRune_cases (pr : Nat → Bool) {r : Nat} (hr : Scalar r) :
    (∀ c ∈ escapeRune pr r, 32 ≤ c.toNat ∧ c.toNat < 127) ∨ (pr r = true ∧ escapeRune pr r = utf8Encode r) := by
  unfold escapeRune
  by_cases h : r = 34 ∨ r = 92
  · left; rw [if_pos h]; rcases h with rfl | rfl <;> decide
  rw [if_neg h]
  by_cases h : pr r = true
  · rw [if_pos h]; exact .inr ⟨h, appendRune_eq r⟩
  rw [if_neg h]
  left
  have key : ∀ (p : Prop) [Decidable p] (x y : Bytes), (∀ c ∈ x, 32 ≤ c.toNat ∧ c.toNat < 127) → (∀ c ∈ y, 32 ≤ c.toNat ∧ c.toNat < 127) →
      ∀ c ∈ (if p then x else y), 32 ≤ c.toNat ∧ c.toNat < 127 := by
    intro p _ x y hx hy
    by_cases h : p
    · rw [if_pos h]; exact hx
    · rw [if_neg h]; exact hy
  refine key _ _ _ (by decide) <| key _ _ _ (by decide) <| key _ _ _ (by decide) <| key _ _ _ (by decide) <| key _ _ _ (by decide) <|
    key _ _ _ (by decide) <| key _ _ _ (by decide) <| key _ _ _ (hexEscape_char 120 (by decide) 2 r) <|
    key _ _ _ (hexEscape_char 117 (by decide) 4 r) (hexEscape_char 85 (by decide) 8 r)

/-- The text between the quotes is a sequence of printable ASCII characters and printable code points. -/
theorem quoteLoop_induct (pr : Nat → Bool) {P : Bytes → Prop} (h0 : P []) (ha : ∀ s t, (∀ c ∈ s, 32 ≤ c.toNat ∧ c.toNat < 127) → P t → P (s ++ t))
    (hp : ∀ r t, Scalar r → pr r = true → P t → P (utf8Encode r ++ t)) (s : Bytes) : P (quoteLoop pr 0 s) := by
  generalize hn : s.length = n
  induction n using Nat.strongRecOn generalizing s with
  | ind n ih =>
    cases s with
    | nil => exact h0
    | cons a s =>
      simp only [List.length_cons] at hn
      rcases quoteLoop_cons pr a s with ⟨-, -, h⟩ | ⟨r, t', hr, hs, hl, h⟩
      · rw [h]
        exact ha _ _ (hexEscape_char 120 (by decide) 2 _) (ih s.length (by omega) s rfl)
      · rw [h]
        have := ih t'.length (by omega) t' rfl
        rcases escapeRune_cases pr hr with h1 | ⟨h1, h2⟩
        · exact ha _ _ h1 this
        · rw [h2]; exact hp _ _ hr h1 this

/-- C73: a quoted string is one line, whatever bytes it consists of. -/
theorem C73_line {pr : Nat → Bool} (hp : PrintsAscii pr) (s : Bytes) : OneLine (quote pr s) := by
  have : OneLine (quoteLoop pr 0 s) := by
    refine quoteLoop_induct pr (P := OneLine) (by simp [OneLine]) ?_ ?_ s
    · intro s t h h'
      exact oneLine_append (fun c hc => ⟨(h c hc).1, by have := (h c hc).2; omega⟩) h'
    · intro r t hr h h'
      refine oneLine_append (utf8Encode_oneLine ?_ hr) h'
      have := hp r
      by_cases hlt : r < 128
      · have := (this hlt).1 h; omega
      · omega
  exact oneLine_append (s := [34]) (by decide) (oneLine_append this (by decide))

/-- C73: a quoted string is well-formed text, whatever bytes it consists of. -/
theorem C73_text (pr : Nat → Bool) (s : Bytes) : ValidUTF8 (quote pr s) := by
  have : ValidUTF8 (quoteLoop pr 0 s) := by
    refine quoteLoop_induct pr (P := ValidUTF8) ⟨[], by simp, rfl⟩ ?_ ?_ s
    · intro s t h h'
      exact utf8_append (utf8_ascii fun c hc => by have := (h c hc).2; omega) h'
    · rintro r t hr - h'
      exact utf8_append ⟨[r], by simpa using hr, by simp⟩ h'
  exact utf8_cons_ascii (by decide) (utf8_append this (utf8_ascii (by decide)))

/-- C73: printable ASCII other than quotes and backslashes is shown as it is. -/
theorem C73_plain {pr : Nat → Bool} (hp : PrintsAscii pr) {s : Bytes} (h : ∀ c ∈ s, 32 ≤ c.toNat ∧ c.toNat < 127 ∧ c ≠ 34 ∧ c ≠ 92) :
    quote pr s = b!"\"" ++ s ++ b!"\"" := by
  have : quoteLoop pr 0 s = s := by
    induction s with
    | nil => rfl
    | cons a s ih =>
      obtain ⟨h1, h2, h3, h4⟩ := h a (by simp)
      have hd : decodeRune (a :: s) = (a.toNat, 1) := by
        simp only [decodeRune, UInt8.lt_iff_toNat_lt, UInt8.reduceToNat]
        rw [if_pos (by omega)]
      have hq := (hp a.toNat (by omega)).2 ⟨h1, h2⟩
      have h5 : ¬ (a.toNat = 34 ∨ a.toNat = 92) := by
        rintro (h | h)
        · exact h3 (UInt8.toNat_inj.1 h)
        · exact h4 (UInt8.toNat_inj.1 h)
      rw [quoteLoop, hd]
      simp only [escapeRune, hq, h5, if_false, if_true, appendRune, ih fun c hc => h c (by simp [hc])]
      rw [if_neg (by omega), if_pos (by omega)]
      simp
  simp [quote, this]

theorem lowerhex_digit {n : Nat} (h : n < 16) : HexDigit (lowerhex n) n := by
  by_cases h1 : n < 10
  · exact .decimal h1 (by unfold lowerhex; rw [if_pos h1, UInt8.toNat_ofNat']; omega)
  · exact .lower (by omega) h (by unfold lowerhex; rw [if_neg h1, UInt8.toNat_ofNat']; omega)

theorem hexDigits_length (n r : Nat) : (hexDigits n r).length = n := by
  induction n with
  | zero => rfl
  | succ n ih => rw [hexDigits, List.length_cons, ih]

theorem hexDigits_number (n r : Nat) : HexNumber (hexDigits n r) (r % 16 ^ n) := by
  induction n with
  | zero => rw [Nat.pow_zero, Nat.mod_one]; exact .nil
  | succ n ih =>
    have := HexNumber.cons (lowerhex_digit (Nat.mod_lt (r / 16 ^ n) (by decide : 0 < 16))) ih
    rw [hexDigits_length] at this
    rw [hexDigits, show r % 16 ^ (n + 1) = r / 16 ^ n % 16 * 16 ^ n + r % 16 ^ n by
      rw [Nat.pow_succ, Nat.mod_mul]; rw [Nat.mul_comm]; omega]
    exact this

theorem escapeRune_denotes {pr : Nat → Bool} (hp : pr 10 = false) {r : Nat} (hr : Scalar r) {w s : Bytes} (h : StandsFor w s) :
    StandsFor (escapeRune pr r ++ w) (utf8Encode r ++ s) := by
  have hlow : ∀ r, r < 128 → utf8Encode r = [UInt8.ofNat r] := fun r h => by rw [utf8Encode, if_pos h]
  have hsp : ∀ (c : UInt8) (r : Nat), r < 128 → (c, UInt8.ofNat r) ∈ [((97 : UInt8), (7 : UInt8)), (98, 8), (102, 12), (110, 10), (114, 13), (116, 9), (118, 11), (92, 92), (34, 34)] →
      StandsFor ([92, c] ++ w) (utf8Encode r ++ s) := fun c r h1 h2 => by rw [hlow r h1]; exact .special h2 h
  unfold escapeRune
  split
  · next h => rcases h with rfl | rfl <;> exact hsp _ _ (by decide) (by decide)
  next h0 =>
  simp only [not_or] at h0
  split
  · next h1 => rw [appendRune_eq]; exact .char hr h0.1 h0.2 (by rintro rfl; rw [hp] at h1; cases h1) h
  split
  · next h => subst h; exact hsp _ _ (by decide) (by decide)
  split
  · next h => subst h; exact hsp _ _ (by decide) (by decide)
  split
  · next h => subst h; exact hsp _ _ (by decide) (by decide)
  split
  · next h => subst h; exact hsp _ _ (by decide) (by decide)
  split
  · next h => subst h; exact hsp _ _ (by decide) (by decide)
  split
  · next h => subst h; exact hsp _ _ (by decide) (by decide)
  split
  · next h => subst h; exact hsp _ _ (by decide) (by decide)
  split
  · next h1 =>
    rw [hlow r (by omega)]
    refine .byte (hexDigits_length _ _) ?_ h
    have := hexDigits_number 2 r
    rwa [UInt8.toNat_ofNat']
  split
  · next h1 =>
    refine .short (hexDigits_length _ _) ?_ hr h
    have := hexDigits_number 4 r
    rwa [Nat.mod_eq_of_lt (by omega)] at this
  · refine .long (hexDigits_length _ _) ?_ hr h
    have := hexDigits_number 8 r
    rwa [Nat.mod_eq_of_lt (by have := hr.1; omega)] at this

/-- C73: a quoted string is a string literal of Go that stands for the string, whatever bytes it consists of. -/
theorem C73_literal {pr : Nat → Bool} (hp : pr 10 = false) (s : Bytes) : ∃ body, quote pr s = b!"\"" ++ body ++ b!"\"" ∧ StandsFor body s := by
  refine ⟨quoteLoop pr 0 s, by simp [quote], ?_⟩
  generalize hn : s.length = n
  induction n using Nat.strongRecOn generalizing s with
  | ind n ih =>
    cases s with
    | nil => exact .nil
    | cons a s =>
      simp only [List.length_cons] at hn
      rcases quoteLoop_cons pr a s with ⟨-, -, h⟩ | ⟨r, t', hr, hs, hl, h⟩
      · rw [h]
        refine .byte (hexDigits_length _ _) ?_ (ih s.length (by omega) s rfl)
        have := hexDigits_number 2 a.toNat
        rwa [Nat.mod_eq_of_lt (by have := a.toNat_lt; omega)] at this
      · rw [h, hs]
        exact escapeRune_denotes hp hr (ih t'.length (by omega) t' rfl)

theorem isPrint_visible (table : Nat → Bool) {r : Nat} (h : r ≤ 0xFF) : isPrint table r = true ↔ Visible r := by
  unfold isPrint Visible
  rw [if_pos h]
  by_cases h1 : 0x20 ≤ r ∧ r < 0x7F
  · simp [h1]
  · rw [if_neg h1]
    by_cases h2 : 0xA1 ≤ r ∧ r ≤ 0xFF
    · rw [if_pos h2, bne_iff_ne]; omega
    · rw [if_neg h2]; simp only [Bool.false_eq_true, false_iff]; omega

theorem isPrint_ascii (table : Nat → Bool) : PrintsAscii (isPrint table) := by
  intro c hc
  rw [isPrint_visible table (by omega), Visible]
  omega

/-- C73: of the characters of Latin-1 a quoted string contains only those that can be seen. -/
theorem C73_hidden (table : Nat → Bool) (s : Bytes) :
    ∃ cs : List Nat, (∀ c ∈ cs, Scalar c ∧ (c ≤ 0xFF → Visible c)) ∧ quote (isPrint table) s = cs.flatMap utf8Encode := by
  have ascii : ∀ s : Bytes, (∀ c ∈ s, 32 ≤ c.toNat ∧ c.toNat < 127) →
      ∃ cs : List Nat, (∀ c ∈ cs, Scalar c ∧ (c ≤ 0xFF → Visible c)) ∧ s = cs.flatMap utf8Encode := by
    intro s h
    refine ⟨s.map UInt8.toNat, ?_, ?_⟩
    · intro c hc
      obtain ⟨x, hx, rfl⟩ := List.mem_map.1 hc
      have := h x hx
      exact ⟨⟨by omega, by omega⟩, fun _ => .inl this⟩
    · induction s with
      | nil => rfl
      | cons a s ih =>
        rw [List.map_cons, List.flatMap_cons, ← ih fun c hc => h c (by simp [hc]), utf8Encode, if_pos (by have := h a (by simp); omega)]
        simp
  have app : ∀ s t : Bytes, (∃ cs : List Nat, (∀ c ∈ cs, Scalar c ∧ (c ≤ 0xFF → Visible c)) ∧ s = cs.flatMap utf8Encode) →
      (∃ cs : List Nat, (∀ c ∈ cs, Scalar c ∧ (c ≤ 0xFF → Visible c)) ∧ t = cs.flatMap utf8Encode) →
      ∃ cs : List Nat, (∀ c ∈ cs, Scalar c ∧ (c ≤ 0xFF → Visible c)) ∧ s ++ t = cs.flatMap utf8Encode := by
    rintro _ _ ⟨cs, h1, rfl⟩ ⟨cs', h2, rfl⟩
    refine ⟨cs ++ cs', fun c hc => ?_, by simp⟩
    rcases List.mem_append.1 hc with hc | hc
    · exact h1 c hc
    · exact h2 c hc
  have : ∃ cs : List Nat, (∀ c ∈ cs, Scalar c ∧ (c ≤ 0xFF → Visible c)) ∧ quoteLoop (isPrint table) 0 s = cs.flatMap utf8Encode := by
    refine quoteLoop_induct (isPrint table) (P := fun w => ∃ cs : List Nat, (∀ c ∈ cs, Scalar c ∧ (c ≤ 0xFF → Visible c)) ∧ w = cs.flatMap utf8Encode)
      ⟨[], by simp, rfl⟩ (fun s t h h' => app s t (ascii s h) h') (fun r t hr h h' => app _ t ⟨[r], ?_, by simp⟩ h') s
    intro c hc
    rw [List.mem_singleton] at hc
    subst hc
    exact ⟨hr, fun hc => (isPrint_visible table hc).1 h⟩
  exact app [34] _ (ascii _ (by decide)) (app _ [34] this (ascii _ (by decide)))

/-- C73: characters of Latin-1 that can be seen, other than quotes and backslashes, are shown as they are. -/
theorem C73_shown (table : Nat → Bool) {cs : List Nat} (h : ∀ c ∈ cs, Visible c ∧ c ≠ 34 ∧ c ≠ 92) :
    quote (isPrint table) (cs.flatMap utf8Encode) = b!"\"" ++ cs.flatMap utf8Encode ++ b!"\"" := by
  have : quoteLoop (isPrint table) 0 (cs.flatMap utf8Encode) = cs.flatMap utf8Encode := by
    induction cs with
    | nil => rfl
    | cons r cs ih =>
      obtain ⟨h1, h2, h3⟩ := h r (by simp)
      have ih := ih fun c hc => h c (by simp [hc])
      have h255 : r ≤ 0xFF := by unfold Visible at h1; omega
      have hp := (isPrint_visible table h255).2 h1
      have he : escapeRune (isPrint table) r = utf8Encode r := by
        rw [escapeRune, if_neg (by omega), if_pos hp, appendRune_eq]
      rw [List.flatMap_cons]
      generalize cs.flatMap utf8Encode = t at *
      by_cases hlt : r < 0x80
      · have hd : decodeRune (UInt8.ofNat r :: t) = (r, 1) := by
          simp only [decodeRune, UInt8.lt_iff_toNat_lt, UInt8.toNat_ofNat']
          rw [if_pos (by simp only [UInt8.reduceToNat]; omega), Nat.mod_eq_of_lt (by omega)]
        have hu : utf8Encode r = [UInt8.ofNat r] := by rw [utf8Encode, if_pos hlt]
        rw [hu, List.singleton_append, quoteLoop, hd, if_neg (by simp only; omega)]
        simp only [he, hu, ih, Nat.sub_self, List.singleton_append]
      · have hv : 0xA1 ≤ r ∧ r ≤ 0xFF := by unfold Visible at h1; omega
        have hu : utf8Encode r = [UInt8.ofNat (0xC0 + r / 64), UInt8.ofNat (0x80 + r % 64)] := by rw [utf8Encode, if_neg hlt, if_pos (by omega)]
        have ha : (UInt8.ofNat (0xC0 + r / 64)).toNat = 0xC0 + r / 64 := by rw [UInt8.toNat_ofNat']; omega
        have hb : (UInt8.ofNat (0x80 + r % 64)).toNat = 0x80 + r % 64 := by rw [UInt8.toNat_ofNat']; omega
        have hlo := acceptLo_toNat (UInt8.ofNat (0xC0 + r / 64))
        have hhi := acceptHi_toNat (UInt8.ofNat (0xC0 + r / 64))
        rw [ha, if_neg (by omega), if_neg (by omega)] at hlo hhi
        have hd : decodeRune (UInt8.ofNat (0xC0 + r / 64) :: UInt8.ofNat (0x80 + r % 64) :: t) = (r, 2) := by
          simp only [decodeRune, UInt8.le_iff_toNat_le, UInt8.lt_iff_toNat_lt, ha, hb, hlo, hhi, UInt8.reduceToNat]
          rw [if_neg (by omega), if_pos (by omega), if_pos (by omega), show (0xC0 + r / 64) % 32 * 64 + (0x80 + r % 64) % 64 = r by omega]
        rw [hu, List.cons_append, List.singleton_append, quoteLoop, hd, if_neg (by simp)]
        simp only [he, hu, quoteLoop, ih, List.cons_append, List.nil_append]
  simp [quote, this]

/-! ## The records of the server -/

theorem name_char {n : Bytes} : (∀ c ∈ toLower n, 97 ≤ c.toNat ∧ c.toNat ≤ 122) → ∀ c ∈ n, c ≠ 44 ∧ 32 ≤ c.toNat ∧ c.toNat ≠ 127 := by
  induction n using toLower.induct with
  | case1 cs ih =>
    intro h c hc
    rw [toLower] at h
    simp only [List.mem_cons] at hc
    rcases hc with rfl | rfl | hc
    · decide
    · decide
    · exact ih (fun c hc => h c (by simp [hc])) c hc
  | case2 cs ih =>
    intro h c hc
    rw [toLower] at h
    simp only [List.mem_cons] at hc
    rcases hc with rfl | rfl | rfl | hc
    · decide
    · decide
    · decide
    · exact ih (fun c hc => h c (by simp [hc])) c hc
  | case3 d cs h1 h2 ih =>
    intro h c hc
    rw [toLower] at h <;> try assumption
    simp only [List.mem_cons] at hc
    rcases hc with rfl | hc
    · have := h _ (List.mem_cons_self ..)
      refine ⟨?_, ?_⟩
      · rintro rfl; revert this; decide
      · split at this
        · omega
        · omega
    · exact ih (fun c hc => h c (by simp [hc])) c hc
  | case4 => simp

theorem keyMap_names : ∀ k ∈ keyMap.keys, ∀ c ∈ k, 97 ≤ c.toNat ∧ c.toNat ≤ 122 := by
  decide +kernel

theorem logged_name {objs : List Resp} (h : isLogged objs = true) : ∀ c ∈ (objs.head?.bind text).getD [], c ≠ 44 ∧ 32 ≤ c.toNat ∧ c.toNat ≠ 127 := by
  unfold isLogged requestCommand newCommand at h
  cases objs with
  | nil => simp at h
  | cons o args =>
    cases ht : text o with
    | none => simp [ht] at h
    | some name =>
      simp only [ht] at h
      simp only [List.head?_cons, Option.bind_some, ht, Option.getD_some]
      refine name_char (keyMap_names _ ?_)
      rw [GoMap.mem_keys_iff]
      cases hk : keyMap.get (toLower name) with
      | none => simp [hk] at h
      | some f => exact ⟨f, rfl⟩

/-- The record the server writes for a request. -/
def recordOf (s : Stamp) (objs : List Resp) : VLog := newLog s ((objs.head?.bind text).getD []) 1 objs

/-- C73: two logged requests of the server, with ids and hosts without a comma, are printed alike only if their records are the same. -/
theorem C73_request (pr : Nat → Bool) {s s' : Stamp} {objs objs' : List Resp} (hl : isLogged objs = true) (hl' : isLogged objs' = true)
    (h : 44 ∉ s.id ++ s.host) (h' : 44 ∉ s'.id ++ s'.host) (he : formatLog pr (recordOf s objs) = formatLog pr (recordOf s' objs')) :
    recordOf s objs = recordOf s' objs' := by
  refine C73_record pr ?_ ?_ he
  · intro hc
    rcases List.mem_append.1 hc with hc | hc
    · exact h hc
    · exact (logged_name hl _ hc).1 rfl
  · intro hc
    rcases List.mem_append.1 hc with hc | hc
    · exact h' hc
    · exact (logged_name hl' _ hc).1 rfl

theorem fmtInt_oneLine (n : Int) : OneLine (fmtInt n) := by
  intro c hc
  rcases fmtInt_chars n c hc with rfl | h
  · decide
  · have : 48 ≤ c.toNat ∧ c.toNat ≤ 57 := h
    omega

theorem join_oneLine {pr : Nat → Bool} (hp : PrintsAscii pr) (ss : List Bytes) : OneLine (quoteJoin pr ss b!",") := by
  induction ss with
  | nil => intro c hc; simp [quoteJoin, join] at hc
  | cons s ss ih =>
    cases ss with
    | nil => exact C73_line hp s
    | cons y ys => exact oneLine_append (oneLine_append (C73_line hp s) (by decide)) ih

/-- C73: whatever bytes a client sends, its request cannot forge a line of the log. -/
theorem C73_forge {pr : Nat → Bool} (hp : PrintsAscii pr) {s : Stamp} {objs : List Resp} (hl : isLogged objs = true) (h1 : OneLine s.id)
    (h2 : OneLine s.host) : OneLine (formatLog pr (recordOf s objs)) := by
  have hn : OneLine (recordOf s objs).name := fun c hc => (logged_name hl c hc).2
  unfold formatLog
  repeat' apply oneLine_append
  all_goals first
    | exact C73_line hp _
    | exact join_oneLine hp _
    | exact fmtInt_oneLine _
    | exact h1
    | exact h2
    | exact hn
    | decide

/-- C73 for arbitrary records: a name with commas can look like the following fields, so that different records are printed alike. Such names occur
only in a log file that the server has not written. -/
theorem C73_false (pr : Nat → Bool) : ∃ v v' : VLog, v ≠ v' ∧ formatLog pr v = formatLog pr v' :=
  ⟨{ id := [], time := 0, host := b!"h, name=n", name := b!"m", index := 1, args := [], raw := [] },
   { id := [], time := 0, host := b!"h", name := b!"n, name=m", index := 1, args := [], raw := [] }, by decide, rfl⟩

/-- Printing ASCII only. -/
def asciiOnly (c : Nat) : Bool := 32 ≤ c && c < 127

example : PrintsAscii asciiOnly := by intro c _; simp [asciiOnly]

/-- A quote, a newline, an invalid byte, a letter with and one without printing. -/
example : quote asciiOnly b!"a\"\n" = b!"\"a\\\"\\n\"" ∧ quote asciiOnly [0xff] = b!"\"\\xff\"" ∧ quote asciiOnly [0xc3, 0xa9] = b!"\"\\u00e9\"" ∧
    quote (fun _ => true) [0xc3, 0xa9] = [34, 0xc3, 0xa9, 34] ∧ quote asciiOnly [0xf0, 0x9f, 0x98, 0x80] = b!"\"\\U0001f600\"" := by
  decide +kernel

/-- A request with a line break in its argument, as printed. -/
example : isLogged [.bulk b!"SET", .bulk b!"k", .bulk b!"\n"] = true ∧
    formatLog asciiOnly (recordOf ⟨b!"i", 7, b!"unknown"⟩ [.bulk b!"SET", .bulk b!"k", .bulk b!"\n"]) =
      b!"VectexLog{id=i, time=7, host=unknown, name=SET, index=1, arguments=[\"$1\\r\\nk\\r\\n\",\"$1\\r\\n\\n\\r\\n\"], raw_request=\"*3\\r\\n$3\\r\\nSET\\r\\n$1\\r\\nk\\r\\n$1\\r\\n\\n\\r\\n\"}" := by
  decide +kernel

example : (44 : UInt8) ∉ (⟨b!"i", 7, b!"unknown"⟩ : Stamp).id ++ b!"unknown" ∧ OneLine b!"unknown" ∧
    ∀ c ∈ b!"plain text", 32 ≤ c.toNat ∧ c.toNat < 127 ∧ c ≠ 34 ∧ c ≠ 92 := by
  decide

/-- What meets the hypotheses of `C73_shown` and `C73_literal`; a letter with an accent and a soft hyphen. -/
example : (∀ c ∈ [0x61, 0xE9], Visible c ∧ c ≠ 34 ∧ c ≠ 92) ∧ isPrint (fun _ => false) 10 = false ∧
    quote (isPrint fun _ => false) [0x61, 0xc3, 0xa9] = [34, 0x61, 0xc3, 0xa9, 34] ∧ quote (isPrint fun _ => false) [0xc2, 0xad] = b!"\"\\u00ad\"" := by
  refine ⟨?_, by decide, by decide +kernel, by decide +kernel⟩
  simp [Visible]

end Verif.Props
