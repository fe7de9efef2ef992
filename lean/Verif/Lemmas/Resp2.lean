import Verif.Lemmas.Resp

/-! Fuel-free view of the RESP reader, extension, round trip. -/

namespace Verif

open Spec (LineSafe Clean Sized IsDigit)

/-- One `readObject`, with the element loop passed as a parameter. -/
def step (k : Nat → Bytes → ReadRes (List Resp)) (s : Bytes) : ReadRes Resp :=
    match readToken s with
    | .eof => .eof
    | .bad => .bad
    | .panic => .panic
    | .stuck => .stuck
    | .ok token rest =>
      match token with
      | [] => .bad
      | c :: _ =>
        if c = 43 then
          match tokenBody token with
          | some d => .ok (.simple d) rest
          | none => .panic
        else if c = 36 then readBulk token rest
        else if c = 45 then
          match tokenBody token with
          | some d => .ok (.error d) rest
          | none => .panic
        else if c = 58 then
          match tokenBody token with
          | none => .panic
          | some d =>
            match parseInt64 d with
            | none => .bad
            | some n => .ok (.int n) rest
        else if c = 42 then
          match tokenBody token with
          | none => .panic
          | some d =>
            match parseInt64 d with
            | none => .bad
            | some n =>
              if n = -1 then .ok .nullArray rest
              else match k n.toNat rest with
                | .ok items rest' => .ok (.array items) rest'
                | .eof => .eof
                | .bad => .bad
                | .panic => .panic
                | .stuck => .stuck
        else .bad

theorem readObject_succ (f : Nat) (s : Bytes) : readObject (f + 1) s = step (readItems f) s := by
  unfold readObject step; rfl

def ReadRes.ext {α : Type} (x : Bytes) : ReadRes α → ReadRes α
  | .ok a r => .ok a (r ++ x)
  | .eof => .eof
  | .bad => .bad
  | .panic => .panic
  | .stuck => .stuck

def ReadRes.mapR {α β : Type} (g : α → β) : ReadRes α → ReadRes β
  | .ok a r => .ok (g a) r
  | .eof => .eof
  | .bad => .bad
  | .panic => .panic
  | .stuck => .stuck

def arrMap (r : ReadRes (List Resp)) : ReadRes Resp := r.mapR .array

/-- What a complete token `c :: d` followed by `rest` is read as. -/
def stepBody (k : Nat → Bytes → ReadRes (List Resp)) (c : UInt8) (d : Bytes) (rest : Bytes) : ReadRes Resp :=
  if c = 43 then .ok (.simple d) rest
  else if c = 36 then readBulk (c :: d ++ [13, 10]) rest
  else if c = 45 then .ok (.error d) rest
  else if c = 58 then
    match parseInt64 d with
    | none => .bad
    | some n => .ok (.int n) rest
  else if c = 42 then
    match parseInt64 d with
    | none => .bad
    | some n => if n = -1 then .ok .nullArray rest else arrMap (k n.toNat rest)
  else .bad

theorem step_token (k : Nat → Bytes → ReadRes (List Resp)) {c : UInt8} {d rest : Bytes}
    (hs : LineSafe (c :: d)) (hc : c ≠ 10) :
    step k (c :: d ++ 13 :: 10 :: rest) = stepBody k c d rest := by
  unfold step
  rw [readToken_token hs (by simpa using hc)]
  simp only [List.cons_append]
  rw [← List.cons_append, tokenBody_cons]
  unfold stepBody arrMap ReadRes.mapR
  repeat' split
  all_goals simp_all

/-- Case analysis of a step: the token is missing, malformed, blank, or complete. -/
theorem step_cases (k : Nat → Bytes → ReadRes (List Resp)) (s : Bytes) :
    (readToken s = .eof ∧ step k s = .eof) ∨ (readToken s = .bad ∧ step k s = .bad) ∨
    (∃ rest, s = 13 :: 10 :: rest ∧ step k s = .bad) ∨
    (∃ c d rest, s = c :: d ++ 13 :: 10 :: rest ∧ LineSafe (c :: d) ∧ c ≠ 10 ∧ step k s = stepBody k c d rest) := by
  cases h : readToken s with
  | eof => left; simp [step, h]
  | bad => right; left; simp [step, h]
  | panic => exact absurd h (readToken_not_panic s)
  | stuck => exact absurd h (readToken_not_stuck s)
  | ok t r =>
    right; right
    obtain ⟨v, rfl, rfl, h3, h4⟩ := readToken_ok h
    cases v with
    | nil =>
      left
      refine ⟨r, rfl, ?_⟩
      simp only [List.nil_append] at h
      simp [step, h]
    | cons c d =>
      right
      have hc : c ≠ 10 := by simpa using h4
      exact ⟨c, d, r, rfl, h3, hc, step_token k h3 hc⟩

theorem stepBody_length {k : Nat → Bytes → ReadRes (List Resp)} {c : UInt8} {d rest : Bytes} {o : Resp} {r : Bytes}
    (hk : ∀ n os r, k n rest = .ok os r → r.length ≤ rest.length)
    (h : stepBody k c d rest = .ok o r) : r.length ≤ rest.length := by
  unfold stepBody at h
  split at h
  · simp at h; rw [h.2]; exact Nat.le_refl _
  split at h
  · exact readBulk_length h
  split at h
  · simp at h; rw [h.2]; exact Nat.le_refl _
  split at h
  · split at h <;> simp at h; rw [h.2]; exact Nat.le_refl _
  split at h
  · split at h
    · simp at h
    · split at h
      · simp at h; rw [h.2]; exact Nat.le_refl _
      · unfold arrMap ReadRes.mapR at h
        split at h <;> simp at h
        rename_i he; rw [← h.2]; exact hk _ _ _ he
  · simp at h

theorem stepBody_not_stuck {k : Nat → Bytes → ReadRes (List Resp)} {c : UInt8} {d rest : Bytes}
    (hk : ∀ n, k n rest ≠ .stuck) : stepBody k c d rest ≠ .stuck := by
  unfold stepBody
  split; · simp
  split; · exact readBulk_not_stuck _ _
  split; · simp
  split; · split <;> simp
  split
  · split
    · simp
    · split
      · simp
      · rename_i n _ _
        unfold arrMap ReadRes.mapR
        split <;> simp
        rename_i he; exact hk _ he
  · simp

theorem stepBody_congr {k k' : Nat → Bytes → ReadRes (List Resp)} {c : UInt8} {d rest : Bytes}
    (hk : ∀ n, k n rest = k' n rest) : stepBody k c d rest = stepBody k' c d rest := by
  unfold stepBody; simp only [hk]

theorem step_length {k : Nat → Bytes → ReadRes (List Resp)} {s : Bytes} {o : Resp} {r : Bytes}
    (hk : ∀ n s os r, k n s = .ok os r → r.length ≤ s.length) (h : step k s = .ok o r) : r.length + 3 ≤ s.length := by
  rcases step_cases k s with ⟨_, e⟩ | ⟨_, e⟩ | ⟨_, _, e⟩ | ⟨c, d, rest, rfl, _, _, e⟩
  · simp [e] at h
  · simp [e] at h
  · simp [e] at h
  · rw [e] at h
    have := stepBody_length (fun n os r => hk n rest os r) h
    simp; omega

theorem step_not_stuck {k : Nat → Bytes → ReadRes (List Resp)} {s : Bytes}
    (hk : ∀ n s', s'.length + 3 ≤ s.length → k n s' ≠ .stuck) : step k s ≠ .stuck := by
  rcases step_cases k s with ⟨_, e⟩ | ⟨_, e⟩ | ⟨_, _, e⟩ | ⟨c, d, rest, rfl, _, _, e⟩
  · simp [e]
  · simp [e]
  · simp [e]
  · rw [e]; exact stepBody_not_stuck (fun n => hk n rest (by simp))

theorem step_congr {k k' : Nat → Bytes → ReadRes (List Resp)} {s : Bytes}
    (hk : ∀ n s', s'.length + 3 ≤ s.length → k n s' = k' n s') : step k s = step k' s := by
  rcases step_cases k s with ⟨h, e⟩ | ⟨h, e⟩ | ⟨rest, rfl, e⟩ | ⟨c, d, rest, rfl, h1, h2, e⟩
  · rw [e]; simp [step, h]
  · rw [e]; simp [step, h]
  · rw [e]
    have ht := readToken_token (v := []) (rest := rest) lineSafe_nil (by simp)
    simp only [List.nil_append] at ht
    simp [step, ht]
  · rw [e, step_token k' h1 h2]; exact stepBody_congr (fun n => hk n rest (by simp))

theorem readItems_length : ∀ (f n : Nat) (s : Bytes) (os : List Resp) (r : Bytes),
    readItems f n s = .ok os r → r.length ≤ s.length := by
  intro f
  induction f using Nat.strongRecOn with
  | _ f ih =>
    intro n s os r h
    cases n with
    | zero => simp [readItems] at h; rw [h.2]; exact Nat.le_refl _
    | succ n =>
      cases f with
      | zero => simp [readItems] at h
      | succ f =>
        simp only [readItems] at h
        split at h <;> try (simp at h; done)
        rename_i o rest he
        have h1 : rest.length + 3 ≤ s.length := by
          cases f with
          | zero => simp [readObject] at he
          | succ f =>
            rw [readObject_succ] at he
            exact step_length (ih f (by omega)) he
        split at h <;> simp at h
        rename_i os' rest' he'
        have := ih f (by omega) _ _ _ _ he'
        rw [← h.2]; omega

/-- Progress: a successful read consumes at least three bytes. -/
theorem readObject_length {f : Nat} {s : Bytes} {o : Resp} {r : Bytes} (h : readObject f s = .ok o r) :
    r.length + 3 ≤ s.length := by
  cases f with
  | zero => simp [readObject] at h
  | succ f => rw [readObject_succ] at h; exact step_length (readItems_length f) h

/-- Fuel is sufficient and the result does not depend on it. -/
theorem fuel_aux : ∀ L : Nat,
    (∀ s : Bytes, s.length ≤ L → ∀ f ≥ 2 * s.length + 2, readObject f s ≠ .stuck ∧
      readObject f s = readObject (2 * s.length + 2) s) ∧
    (∀ s : Bytes, s.length ≤ L → ∀ n, ∀ f ≥ 2 * s.length + 3, readItems f n s ≠ .stuck ∧
      readItems f n s = readItems (2 * s.length + 3) n s) := by
  intro L
  induction L using Nat.strongRecOn with
  | _ L ih =>
    have hobj : ∀ s : Bytes, s.length ≤ L → ∀ f ≥ 2 * s.length + 2, readObject f s ≠ .stuck ∧
        readObject f s = readObject (2 * s.length + 2) s := by
      intro s hs f hf
      obtain ⟨f, rfl⟩ : ∃ g, f = g + 1 := ⟨f - 1, by omega⟩
      have hk : ∀ n s', s'.length + 3 ≤ s.length → readItems f n s' ≠ .stuck ∧
          readItems f n s' = readItems (2 * s'.length + 3) n s' := by
        intro n s' hs'
        exact (ih s'.length (by omega)).2 s' (Nat.le_refl _) n f (by omega)
      have hk2 : ∀ n s', s'.length + 3 ≤ s.length → 
          readItems (2 * s.length + 1) n s' = readItems (2 * s'.length + 3) n s' := by
        intro n s' hs'
        exact ((ih s'.length (by omega)).2 s' (Nat.le_refl _) n (2 * s.length + 1) (by omega)).2
      refine ⟨?_, ?_⟩
      · rw [readObject_succ]; exact step_not_stuck fun n s' h => (hk n s' h).1
      · rw [readObject_succ, show 2 * s.length + 2 = (2 * s.length + 1) + 1 from rfl, readObject_succ]
        exact step_congr fun n s' h => by rw [(hk n s' h).2, hk2 n s' h]
    refine ⟨hobj, ?_⟩
    intro s hs n f hf
    obtain ⟨f, rfl⟩ : ∃ g, f = g + 1 := ⟨f - 1, by omega⟩
    cases n with
    | zero => simp [readItems]
    | succ n =>
      obtain ⟨h1, h2⟩ := hobj s hs f (by omega)
      simp only [readItems]
      rw [h2]
      rw [h2] at h1
      cases ho : readObject (2 * s.length + 2) s with
      | eof => simp
      | bad => simp
      | panic => simp
      | stuck => exact absurd ho h1
      | ok o rest =>
        have hl := readObject_length ho
        have ha := (ih rest.length (by omega)).2 rest (Nat.le_refl _) n f (by omega)
        have hb := (ih rest.length (by omega)).2 rest (Nat.le_refl _) n (2 * s.length + 2) (by omega)
        simp only
        rw [ha.2, hb.2]
        refine ⟨?_, rfl⟩
        have := ha.1
        rw [ha.2] at this
        split <;> simp
        rename_i hx; exact this hx

/-- Fuel-free element loop. -/
def parseItems (n : Nat) (s : Bytes) : ReadRes (List Resp) := readItems (2 * s.length + 3) n s

theorem parse_not_stuck (s : Bytes) : parse s ≠ .stuck := ((fuel_aux s.length).1 s (Nat.le_refl _) _ (Nat.le_refl _)).1

theorem parse_eq (s : Bytes) : parse s = step parseItems s := by
  unfold parse
  rw [show 2 * s.length + 2 = (2 * s.length + 1) + 1 from rfl, readObject_succ]
  apply step_congr
  intro n s' h
  exact ((fuel_aux s'.length).2 s' (Nat.le_refl _) n _ (by omega)).2

theorem parseItems_zero (s : Bytes) : parseItems 0 s = .ok [] s := by
  simp [parseItems, readItems]

theorem parseItems_succ (n : Nat) (s : Bytes) : parseItems (n + 1) s =
    match parse s with
    | .eof => .eof
    | .bad => .bad
    | .panic => .panic
    | .stuck => .stuck
    | .ok o rest => (parseItems n rest).mapR (o :: ·) := by
  unfold parseItems
  simp only [readItems]
  change (match parse s with | _ => _) = _
  unfold parse
  cases ho : readObject (2 * s.length + 2) s <;> simp only
  rename_i o rest
  have hl := readObject_length ho
  rw [((fuel_aux rest.length).2 rest (Nat.le_refl _) n (2 * s.length + 2) (by omega)).2]
  unfold ReadRes.mapR
  cases readItems (2 * List.length rest + 3) n rest <;> rfl

theorem parse_length {s : Bytes} {o : Resp} {r : Bytes} (h : parse s = .ok o r) : r.length + 3 ≤ s.length :=
  readObject_length h

/-! ### extension by further bytes -/

theorem readBulk_ext {t s : Bytes} (x : Bytes) (h : readBulk t s ≠ .eof) :
    readBulk t (s ++ x) = (readBulk t s).ext x := by
  unfold readBulk at h ⊢
  cases hb : tokenBody t with
  | none => simp [ReadRes.ext]
  | some body =>
    simp only [hb] at h ⊢
    cases hp : parseInt64 body with
    | none => simp [ReadRes.ext]
    | some n =>
      simp only [hp] at h ⊢
      by_cases hn : n = -1
      · simp [hn, ReadRes.ext]
      · simp only [hn, if_false] at h ⊢
        cases hr : readBytes (wrap64 (n + 2)) s with
        | ok tok rest =>
          rw [readBytes_append_ok x hr]
          simp only
          cases goSlice tok 0 n <;> simp [ReadRes.ext]
        | eof => rw [hr] at h; simp at h
        | bad =>
          have hneg := readBytes_bad hr
          rw [readBytes_neg _ hneg]
          simp [ReadRes.ext]
        | panic =>
          unfold readBytes at hr; split at hr <;> try simp at hr
          split at hr <;> simp at hr
        | stuck =>
          unfold readBytes at hr; split at hr <;> try simp at hr
          split at hr <;> simp at hr

theorem stepBody_ext {k : Nat → Bytes → ReadRes (List Resp)} {c : UInt8} {d rest x : Bytes}
    (hk : ∀ n, k n rest ≠ .eof → k n (rest ++ x) = (k n rest).ext x) (h : stepBody k c d rest ≠ .eof) :
    stepBody k c d (rest ++ x) = (stepBody k c d rest).ext x := by
  unfold stepBody at h ⊢
  split; · simp [ReadRes.ext]
  rename_i h1; simp only [h1, if_false] at h
  split
  · rename_i h2; simp only [h2, if_true] at h; subst h2; exact readBulk_ext x h
  rename_i h2; simp only [h2, if_false] at h
  split; · simp [ReadRes.ext]
  rename_i h3; simp only [h3, if_false] at h
  split
  · split <;> simp [ReadRes.ext]
  rename_i h4; simp only [h4, if_false] at h
  split
  · rename_i h5; simp only [h5, if_true] at h
    cases hp : parseInt64 d with
    | none => simp [ReadRes.ext]
    | some n =>
      simp only [hp] at h ⊢
      split
      · simp [ReadRes.ext]
      · rename_i h6; simp only [h6, if_false] at h
        have : k n.toNat rest ≠ .eof := by
          intro e; rw [e] at h; simp [arrMap, ReadRes.mapR] at h
        rw [hk _ this]
        cases k n.toNat rest <;> simp [ReadRes.ext, arrMap, ReadRes.mapR]
  · simp [ReadRes.ext]

theorem step_ext {k : Nat → Bytes → ReadRes (List Resp)} {s x : Bytes}
    (hk : ∀ n s', s'.length + 3 ≤ s.length → k n s' ≠ .eof → k n (s' ++ x) = (k n s').ext x)
    (h : step k s ≠ .eof) : step k (s ++ x) = (step k s).ext x := by
  rcases step_cases k s with ⟨_, e⟩ | ⟨h1, e⟩ | ⟨rest, rfl, e⟩ | ⟨c, d, rest, rfl, h1, h2, e⟩
  · exact absurd e h
  · rw [e]; simp [step, readToken_append_bad x h1, ReadRes.ext]
  · rw [e]
    have ht := readToken_token (v := []) (rest := rest ++ x) lineSafe_nil (by simp)
    simp only [List.nil_append] at ht
    simp [step, ht, ReadRes.ext]
  · rw [e] at h ⊢
    have : (c :: d ++ 13 :: 10 :: rest) ++ x = c :: d ++ 13 :: 10 :: (rest ++ x) := by simp
    rw [this, step_token k h1 h2]
    exact stepBody_ext (fun n => hk n rest (by simp)) h

theorem ext_aux : ∀ L : Nat, ∀ x : Bytes,
    (∀ s : Bytes, s.length ≤ L → parse s ≠ .eof → parse (s ++ x) = (parse s).ext x) ∧
    (∀ s : Bytes, s.length ≤ L → ∀ n, parseItems n s ≠ .eof → parseItems n (s ++ x) = (parseItems n s).ext x) := by
  intro L x
  induction L using Nat.strongRecOn with
  | _ L ih =>
    have hobj : ∀ s : Bytes, s.length ≤ L → parse s ≠ .eof → parse (s ++ x) = (parse s).ext x := by
      intro s hs h
      rw [parse_eq] at h
      rw [parse_eq, parse_eq]
      exact step_ext (fun n s' h' => (ih s'.length (by omega)).2 s' (Nat.le_refl _) n) h
    refine ⟨hobj, ?_⟩
    intro s hs n h
    cases n with
    | zero => simp [parseItems_zero, ReadRes.ext]
    | succ n =>
      rw [parseItems_succ] at h
      have hne : parse s ≠ .eof := by intro e; simp [e] at h
      rw [parseItems_succ, parseItems_succ, hobj s hs hne]
      cases ho : parse s with
      | ok o rest =>
        simp only [ReadRes.ext]
        have hl := parse_length ho
        rw [ho] at h
        simp only at h
        have hi : parseItems n rest ≠ .eof := by
          intro e; rw [e] at h; simp [ReadRes.mapR] at h
        rw [(ih rest.length (by omega)).2 rest (Nat.le_refl _) n hi]
        cases parseItems n rest <;> simp [ReadRes.ext, ReadRes.mapR]
      | eof => exact absurd ho hne
      | bad => simp [ReadRes.ext]
      | panic => simp [ReadRes.ext]
      | stuck => simp [ReadRes.ext]

/-- A read that does not end in EOF is not affected by the bytes that follow. -/
theorem parse_ext {s : Bytes} (x : Bytes) (h : parse s ≠ .eof) : parse (s ++ x) = (parse s).ext x :=
  (ext_aux s.length x).1 s (Nat.le_refl _) h

/-! ### round trip -/

theorem lineSafe_marker {c : UInt8} {d : Bytes} (hc : c ≠ 13) (hc' : c ≠ 10) (h : LineSafe d) : LineSafe (c :: d) :=
  lineSafe_cons.2 ⟨h, fun e => hc e.1, fun e => hc' e.1⟩

theorem fmtInt_noLF (n : Int) : (10 : UInt8) ∉ fmtInt n := by
  intro h
  rcases fmtInt_chars n _ h with e | e
  · simp at e
  · simp [IsDigit] at e

theorem fmtNat_noLF (n : Nat) : (10 : UInt8) ∉ fmtNat n := fmtInt_noLF (n : Int)

theorem parse_line {c : UInt8} {d rest : Bytes} (hc : c ≠ 13) (hc' : c ≠ 10) (h : LineSafe d) :
    parse (c :: (d ++ Resp.crlf) ++ rest) = stepBody parseItems c d rest := by
  rw [parse_eq]
  have : c :: (d ++ Resp.crlf) ++ rest = c :: d ++ 13 :: 10 :: rest := by simp [Resp.crlf]
  rw [this, step_token _ (lineSafe_marker hc hc' h) hc']

theorem parse_bulk {d rest : Bytes} (h : d.length + 2 < 2 ^ 63) :
    parse (Resp.encode (.bulk d) ++ rest) = .ok (.bulk d) rest := by
  have e : Resp.encode (.bulk d) ++ rest = 36 :: (fmtNat d.length ++ Resp.crlf) ++ (d ++ Resp.crlf ++ rest) := by
    simp [Resp.encode]
  rw [e, parse_line (by decide) (by decide) (lineSafe_of_noLF (fmtNat_noLF _))]
  unfold stepBody
  rw [if_neg (by decide), if_pos rfl]
  unfold readBulk
  rw [tokenBody_cons]
  simp only
  have hp : parseInt64 (fmtNat d.length) = some (d.length : Int) :=
    parseInt64_fmtInt (n := (d.length : Int)) (by unfold InInt64 minInt64 maxInt64; omega)
  rw [hp]
  simp only
  rw [if_neg (by omega), wrap64_of_in (by unfold InInt64 minInt64 maxInt64; omega)]
  have hr : readBytes ((d.length : Int) + 2) (d ++ Resp.crlf ++ rest) = .ok (d ++ Resp.crlf) rest := by
    unfold readBytes
    rw [if_neg (by omega), if_pos (by simp [Resp.crlf]; omega)]
    have : ((d.length : Int) + 2).toNat = (d ++ Resp.crlf).length := by simp [Resp.crlf]; omega
    rw [this, List.take_left, List.drop_left]
  rw [hr]
  simp only
  have hg : goSlice (d ++ Resp.crlf) 0 (d.length : Int) = some d := by
    unfold goSlice
    rw [if_pos (by simp [Resp.crlf]; omega)]
    simp
  rw [hg]

mutual
theorem parse_encode : ∀ (o : Resp), Clean o → Sized o → ∀ rest, parse (o.encode ++ rest) = .ok o rest
  | .simple d, hc, _, rest => by
    cases hc with | simple hd => exact parse_line (by decide) (by decide) hd
  | .bulk d, _, hs, rest => by
    cases hs with | bulk hd => exact parse_bulk hd
  | .nullBulk, _, _, rest => by
    have := parse_line (c := 36) (d := b!"-1") (rest := rest) (by decide) (by decide) (lineSafe_of_noLF (by decide))
    simp only [Resp.crlf, List.cons_append, List.nil_append] at this
    simp only [Resp.encode, List.cons_append, List.nil_append]
    rw [this]; rfl
  | .error d, hc, _, rest => by
    cases hc with | error hd =>
      have := parse_line (c := 45) (rest := rest) (by decide) (by decide) hd
      exact this
  | .int n, _, hs, rest => by
    cases hs with | int h1 h2 =>
    have := parse_line (c := 58) (rest := rest) (by decide) (by decide) (lineSafe_of_noLF (fmtInt_noLF n))
    simp only [Resp.encode]
    rw [this]
    simp only [stepBody]
    rw [parseInt64_fmtInt (by unfold InInt64 minInt64 maxInt64; omega)]
    rfl
  | .array items, hc, hs, rest => by
    cases hc with | array hc =>
    cases hs with | array hl hs =>
    have hi := parseItems_encode items hc hs rest
    have e : Resp.encode (.array items) ++ rest
        = 42 :: (fmtNat items.length ++ Resp.crlf) ++ (Resp.encodeList items ++ rest) := by
      simp [Resp.encode]
    have hp : parseInt64 (fmtNat items.length) = some (items.length : Int) :=
      parseInt64_fmtInt (n := (items.length : Int)) (by unfold InInt64 minInt64 maxInt64; omega)
    rw [e, parse_line (by decide) (by decide) (lineSafe_of_noLF (fmtNat_noLF _))]
    simp only [stepBody]
    rw [hp]
    simp only [Int.toNat_natCast]
    rw [if_neg (by decide), if_neg (by decide), if_neg (by decide), if_neg (by decide), if_pos trivial, if_neg (by omega), hi]
    rfl
  | .nullArray, _, _, rest => by
    have := parse_line (c := 42) (d := b!"-1") (rest := rest) (by decide) (by decide) (lineSafe_of_noLF (by decide))
    simp only [Resp.crlf, List.cons_append, List.nil_append] at this
    simp only [Resp.encode, List.cons_append, List.nil_append]
    rw [this]; rfl
theorem parseItems_encode : ∀ (os : List Resp), (∀ o ∈ os, Clean o) → (∀ o ∈ os, Sized o) → ∀ rest,
    parseItems os.length (Resp.encodeList os ++ rest) = .ok os rest
  | [], _, _, rest => by simp [parseItems_zero, Resp.encodeList]
  | o :: os, hc, hs, rest => by
    simp only [List.length_cons, Resp.encodeList, List.append_assoc]
    rw [parseItems_succ, parse_encode o (hc o (by simp)) (hs o (by simp))]
    simp only
    rw [parseItems_encode os (fun x hx => hc x (by simp [hx])) (fun x hx => hs x (by simp [hx]))]
    rfl
end

/-! ### accepted objects are clean -/

theorem readBulk_ok {c : UInt8} {d s r : Bytes} {o : Resp} (h : readBulk (c :: d ++ [13, 10]) s = .ok o r) :
    Clean o ∧ Sized o := by
  unfold readBulk at h
  rw [tokenBody_cons] at h
  simp only at h
  split at h
  · simp at h
  · rename_i n hn
    split at h
    · simp at h; rw [← h.1]; exact ⟨.nullBulk, .nullBulk⟩
    · split at h <;> try (simp at h; done)
      rename_i tok rest hb
      obtain ⟨h1, h2, rfl, rfl⟩ := readBytes_ok hb
      split at h <;> simp at h
      rename_i e he
      obtain ⟨h3, h4, h5, rfl⟩ := goSlice_eq_ok he
      rw [← h.1]
      refine ⟨.bulk, .bulk ?_⟩
      have hin := parseInt64_in hn
      unfold InInt64 minInt64 maxInt64 at hin
      have hw : wrap64 (n + 2) = n + 2 ∨ wrap64 (n + 2) < 0 := by unfold wrap64; omega
      have hw2 := wrap64_in (n + 2)
      unfold InInt64 minInt64 maxInt64 at hw2
      rcases hw with hw | hw
      · simp at *; omega
      · omega

theorem stepBody_ok {k : Nat → Bytes → ReadRes (List Resp)} {c : UInt8} {d rest r : Bytes} {o : Resp}
    (hd : LineSafe d)
    (hk : ∀ n os r, k n rest = .ok os r → os.length = n ∧ ∀ o ∈ os, Clean o ∧ Sized o)
    (h : stepBody k c d rest = .ok o r) : Clean o ∧ Sized o := by
  unfold stepBody at h
  split at h
  · simp at h; rw [← h.1]; exact ⟨.simple hd, .simple⟩
  split at h
  · exact readBulk_ok h
  split at h
  · simp at h; rw [← h.1]; exact ⟨.error hd, .error⟩
  split at h
  · split at h <;> simp at h
    rename_i n hn
    have hin := parseInt64_in hn
    unfold InInt64 minInt64 maxInt64 at hin
    rw [← h.1]; exact ⟨.int, .int (by omega) (by omega)⟩
  split at h
  · split at h
    · simp at h
    · rename_i n hn
      have hin := parseInt64_in hn
      unfold InInt64 minInt64 maxInt64 at hin
      split at h
      · simp at h; rw [← h.1]; exact ⟨.nullArray, .nullArray⟩
      · unfold arrMap ReadRes.mapR at h
        split at h <;> simp at h
        rename_i he
        obtain ⟨h1, h2⟩ := hk _ _ _ he
        rw [← h.1]
        exact ⟨.array fun o ho => (h2 o ho).1, .array (by omega) fun o ho => (h2 o ho).2⟩
  · simp at h

theorem ok_aux : ∀ L : Nat,
    (∀ s : Bytes, s.length ≤ L → ∀ o r, parse s = .ok o r → Clean o ∧ Sized o) ∧
    (∀ s : Bytes, s.length ≤ L → ∀ n os r, parseItems n s = .ok os r →
      os.length = n ∧ ∀ o ∈ os, Clean o ∧ Sized o) := by
  intro L
  induction L using Nat.strongRecOn with
  | _ L ih =>
    have hobj : ∀ s : Bytes, s.length ≤ L → ∀ o r, parse s = .ok o r → Clean o ∧ Sized o := by
      intro s hs o r h
      rw [parse_eq] at h
      rcases step_cases parseItems s with ⟨_, e⟩ | ⟨_, e⟩ | ⟨rest, rfl, e⟩ | ⟨c, d, rest, rfl, h1, h2, e⟩
      · simp [e] at h
      · simp [e] at h
      · simp [e] at h
      · rw [e] at h
        exact stepBody_ok (lineSafe_cons.1 h1).1
          (fun n => (ih rest.length (by simp at hs; omega)).2 rest (Nat.le_refl _) n) h
    refine ⟨hobj, ?_⟩
    intro s hs n os r h
    cases n with
    | zero => simp [parseItems_zero] at h; simp [h.1]
    | succ n =>
      rw [parseItems_succ] at h
      cases ho : parse s with
      | ok o rest =>
        rw [ho] at h
        simp only at h
        have hl := parse_length ho
        cases hi : parseItems n rest with
        | ok os' r' =>
          rw [hi] at h
          simp [ReadRes.mapR] at h
          obtain ⟨h1, h2⟩ := (ih rest.length (by omega)).2 rest (Nat.le_refl _) n _ _ hi
          rw [← h.1]
          refine ⟨by simp [h1], ?_⟩
          intro x hx
          simp at hx
          rcases hx with rfl | hx
          · exact hobj s hs _ _ ho
          · exact h2 x hx
        | eof => rw [hi] at h; simp [ReadRes.mapR] at h
        | bad => rw [hi] at h; simp [ReadRes.mapR] at h
        | panic => rw [hi] at h; simp [ReadRes.mapR] at h
        | stuck => rw [hi] at h; simp [ReadRes.mapR] at h
      | eof => simp [ho] at h
      | bad => simp [ho] at h
      | panic => simp [ho] at h
      | stuck => simp [ho] at h

theorem parse_ok_clean {s : Bytes} {o : Resp} {r : Bytes} (h : parse s = .ok o r) : Clean o ∧ Sized o :=
  (ok_aux s.length).1 s (Nat.le_refl _) o r h

end Verif
