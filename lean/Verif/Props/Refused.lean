import Verif.Spec.Refused
import Verif.Props.Wire

/-! # C110 – the bytes that are refused -/

namespace Verif.Props

open Verif Spec

theorem readTokenLoop_bad {f : Nat} {buf s : Bytes} (h : readTokenLoop f buf s = .bad) : ∃ b r, s = b ++ r ∧ BrokenLine b := by
  induction f generalizing buf s with
  | zero => simp [readTokenLoop] at h
  | succ f ih =>
    simp only [readTokenLoop] at h
    split at h
    · simp at h
    · rename_i cur rest he
      obtain ⟨p, hp, rfl, rfl⟩ := readLine_some he
      by_cases hpne : p = []
      · subst hpne
        exact ⟨[10], rest, by simp, [], rfl, lineSafe_nil, by simp, .inl rfl⟩
      · have hl : ¬ (p ++ [10]).length ≤ 1 := by
          have := List.length_pos_iff.2 hpne; simp; omega
        rw [if_neg hl] at h
        split at h
        · simp at h
        · rename_i h13
          rw [getElem?_sub_two_append] at h13
          simp at h13
          obtain ⟨b, r, rfl, w, rfl, h1, h2, h3⟩ := ih h
          refine ⟨p ++ 10 :: w ++ b!"\n", r, by simp, p ++ 10 :: w, rfl, lineSafe_join hp h13 hpne h1 h2, ?_, .inr ?_⟩
          · cases p with
            | nil => exact absurd rfl hpne
            | cons a p => simp at hp ⊢; exact fun e => hp.1 e.symm
          · rcases h3 with rfl | h3
            · simp
            · cases w with
              | nil => simp at h3
              | cons a w => rw [List.getLast?_append, List.getLast?_cons_cons, h3]; rfl

theorem broken_bad {f : Nat} {buf w r : Bytes} (h1 : LineSafe w) (h2 : w.head? ≠ some 10) (h3 : w = [] ∨ w.getLast? = some 10) (hf : w.length < f) :
    readTokenLoop f buf (w ++ 10 :: r) = .bad := by
  induction f generalizing buf w with
  | zero => omega
  | succ f ih =>
    by_cases hw : w = []
    · subst hw
      simp [readTokenLoop, readLine]
    · have h3 := h3.resolve_left hw
      obtain ⟨p, v', rfl, hp⟩ := List.eq_append_cons_of_mem (List.mem_of_getLast? h3)
      have hpne : p ≠ [] := by rintro rfl; simp at h2
      have hlast : p.getLast? ≠ some 13 := by
        intro e
        obtain ⟨q, rfl⟩ := List.getLast?_eq_some_iff.1 e
        exact not_lineSafe_crlf q v' (by simpa using h1)
      have hs : LineSafe (10 :: v') := lineSafe_of_suffix h1
      have hv' := lineSafe_cons.1 hs
      have hh' : v'.head? ≠ some 10 := fun e => hv'.2.2 ⟨rfl, e⟩
      simp only [List.append_assoc, List.cons_append, readTokenLoop]
      rw [readLine_append hp]
      simp only
      have hlen : ¬ (p ++ [10]).length ≤ 1 := by
        have := List.length_pos_iff.2 hpne; simp; omega
      rw [if_neg hlen, if_neg]
      · refine ih hv'.1 hh' ?_ (by simp at hf; omega)
        cases v' with
        | nil => exact .inl rfl
        | cons a v' =>
          right
          rw [List.getLast?_append, List.getLast?_cons_cons] at h3
          cases e : (a :: v').getLast? with
          | none => simp at e
          | some x => rw [e] at h3; exact h3
      · rw [getElem?_sub_two_append]; simp [hlast]

theorem readBulk_bad {d rest : Bytes} : readBulk (36 :: d ++ [13, 10]) rest = .bad ↔
    parseInt64 d = none ∨ ∃ n, parseInt64 d = some n ∧ (n < -2 ∨ 2 ^ 63 ≤ n + 2) := by
  unfold readBulk
  rw [tokenBody_cons]
  simp only
  cases hp : parseInt64 d with
  | none => simp
  | some n =>
    have hn := (parseInt64_eq_some.1 hp).2
    unfold InInt64 minInt64 maxInt64 at hn
    simp only [Option.some.injEq, reduceCtorEq, false_or, exists_eq_left']
    by_cases h1 : n = -1
    · simp [h1]
    rw [if_neg h1]
    by_cases h2 : n < -2 ∨ 2 ^ 63 ≤ n + 2
    · have : wrap64 (n + 2) < 0 := by
        unfold wrap64
        omega
      rw [readBytes_neg _ this]
      exact ⟨fun _ => h2, fun _ => rfl⟩
    · have : ¬ wrap64 (n + 2) < 0 := by
        unfold wrap64
        omega
      simp only [h2, iff_false]
      unfold readBytes
      rw [if_neg this]
      by_cases h3 : wrap64 (n + 2) ≤ rest.length
      · rw [if_pos h3]
        simp only
        split <;> simp
      · rw [if_neg h3]
        simp

theorem stepBody_bad {k : Nat → Bytes → ReadRes (List Resp)} {c : UInt8} {d rest : Bytes} :
    stepBody k c d rest = .bad ↔ c ∉ b!"+-:$*" ∨ (c ∈ b!":$*" ∧ parseInt64 d = none) ∨
      (c = 36 ∧ ∃ n, parseInt64 d = some n ∧ (n < -2 ∨ 2 ^ 63 ≤ n + 2)) ∨ (c = 42 ∧ ∃ n, parseInt64 d = some n ∧ n ≠ -1 ∧ k n.toNat rest = .bad) := by
  have e1 : b!"+-:$*" = ([43, 45, 58, 36, 42] : Bytes) := by decide
  have e2 : b!":$*" = ([58, 36, 42] : Bytes) := by decide
  rw [e1, e2]
  unfold stepBody
  by_cases h1 : c = 43
  · simp [h1]
  by_cases h2 : c = 36
  · subst h2
    rw [if_neg h1, if_pos rfl, readBulk_bad]
    simp
  by_cases h3 : c = 45
  · simp [h3]
  by_cases h4 : c = 58
  · simp only [h4]; simp; cases parseInt64 d <;> simp
  by_cases h5 : c = 42
  · simp only [h5]; simp
    cases hp : parseInt64 d with
    | none => simp
    | some n =>
      simp only [Option.some.injEq]
      by_cases h6 : n = -1
      · simp [h6]
      · simp only [h6, if_false]
        cases hk : k n.toNat rest <;> simp [arrMap, ReadRes.mapR, hk, h6]
  · simp [h1, h2, h3, h4, h5]

theorem parseItems_bad : ∀ (n : Nat) (s : Bytes),
    parseItems n s = .bad ↔ ∃ items b r, s = b ++ r ∧ TakenAll items b ∧ items.length < n ∧ parse r = .bad := by
  intro n
  induction n with
  | zero => intro s; simp [parseItems_zero]
  | succ n ih =>
    intro s
    have first {items : List Resp} {b r : Bytes} (h : TakenAll items b) (hr : parse r = .bad) :
        (items = [] ∧ b = []) ∨ ∃ o os b' bs, items = o :: os ∧ b = b' ++ bs ∧ TakenAll os bs ∧ parse (b ++ r) = .ok o (bs ++ r) := by
      cases h with
      | nil => exact .inl ⟨rfl, rfl⟩
      | cons h1 h2 => exact .inr ⟨_, _, _, _, rfl, rfl, h2, (C62_read _ _ _).2 ⟨_, by simp, h1⟩⟩
    rw [parseItems_succ]
    cases ho : parse s with
    | ok o rest =>
      simp only
      have : (parseItems n rest).mapR (o :: ·) = .bad ↔ parseItems n rest = .bad := by
        cases parseItems n rest <;> simp [ReadRes.mapR]
      rw [this, ih]
      constructor
      · rintro ⟨os, b, r, rfl, h2, h3, h4⟩
        obtain ⟨b', rfl, hb⟩ := (C62_read _ _ _).1 ho
        exact ⟨o :: os, b' ++ b, r, by simp, .cons hb h2, by simp; omega, h4⟩
      · rintro ⟨os, b, r, rfl, h2, h3, h4⟩
        rcases first h2 h4 with ⟨rfl, rfl⟩ | ⟨o', os', b', bs, rfl, rfl, g1, g2⟩
        · rw [List.nil_append, h4] at ho; cases ho
        · rw [g2] at ho; cases ho
          exact ⟨os', bs, r, rfl, g1, by simp at h3; omega, h4⟩
    | bad => simp; exact ⟨[], [], s, rfl, .nil, by simp, ho⟩
    | stuck => exact absurd ho (parse_not_stuck s)
    | eof =>
      refine ⟨fun h => (by cases h), ?_⟩
      rintro ⟨os, b, r, rfl, h2, -, h4⟩
      rcases first h2 h4 with ⟨rfl, rfl⟩ | ⟨_, _, _, _, -, -, -, g2⟩
      · rw [List.nil_append, h4] at ho; cases ho
      · rw [g2] at ho; cases ho
    | panic =>
      refine ⟨fun h => (by cases h), ?_⟩
      rintro ⟨os, b, r, rfl, h2, -, h4⟩
      rcases first h2 h4 with ⟨rfl, rfl⟩ | ⟨_, _, _, _, -, -, -, g2⟩
      · rw [List.nil_append, h4] at ho; cases ho
      · rw [g2] at ho; cases ho

theorem isInt_lineSafe {d : Bytes} {n : Int} (h : IsInt d n) : LineSafe d := lineSafe_of_noLF (numeral_noLF h.1)

theorem bad_of_line {c : UInt8} {d rest : Bytes} (hc : c ∈ b!":$*") (hd : LineSafe d) :
    parse ([c] ++ d ++ b!"\r\n" ++ rest) = stepBody parseItems c d rest := by
  have hc' : c ≠ 13 ∧ c ≠ 10 := by
    have e2 : b!":$*" = ([58, 36, 42] : Bytes) := by decide
    rw [e2] at hc
    simp at hc
    rcases hc with rfl | rfl | rfl <;> decide
  rw [← parse_line hc'.1 hc'.2 hd]
  have : b!"\r\n" = Resp.crlf := by decide
  rw [this]
  simp

/-- C110: a stream is refused exactly when it begins with one of the refused forms. -/
theorem C110_refused (s : Bytes) : parse s = .bad ↔ ∃ b r, s = b ++ r ∧ Refused b := by
  have e1 : b!"\r\n" = ([13, 10] : Bytes) := by decide
  constructor
  · induction hL : s.length using Nat.strongRecOn generalizing s with
    | _ L ih =>
      intro h
      rw [parse_eq] at h
      rcases step_cases parseItems s with ⟨_, e⟩ | ⟨h1, e⟩ | ⟨rest, rfl, e⟩ | ⟨c, d, rest, rfl, h1, h2, e⟩
      · rw [e] at h; cases h
      · obtain ⟨b, r, rfl, hb⟩ := readTokenLoop_bad h1
        exact ⟨b, r, rfl, .line hb⟩
      · exact ⟨[] ++ b!"\r\n", rest, by rw [e1]; rfl, .marker lineSafe_nil (by simp) (by simp)⟩
      · rw [e, stepBody_bad] at h
        have hd := (lineSafe_cons.1 h1).1
        rcases h with h | ⟨h, hn⟩ | ⟨rfl, n, hn, h⟩ | ⟨rfl, n, hn, hm, h⟩
        · exact ⟨(c :: d) ++ b!"\r\n", rest, by rw [e1]; simp, .marker h1 (by simpa using h2) (fun x hx hh => h (by cases hh; exact hx))⟩
        · refine ⟨[c] ++ d ++ b!"\r\n", rest, by rw [e1]; simp, .number h hd ?_⟩
          rintro ⟨n, hh⟩
          rw [parseInt64_eq_some.2 hh] at hn; cases hn
        · exact ⟨b!"$" ++ d ++ b!"\r\n", rest, by rw [e1]; simp, .length (parseInt64_eq_some.1 hn) h⟩
        · obtain ⟨items, b, r, rfl, g1, g2, g3⟩ := (parseItems_bad _ _).1 h
          obtain ⟨b', r', rfl, g4⟩ := ih r.length (by subst hL; simp; omega) r rfl g3
          exact ⟨b!"*" ++ d ++ b!"\r\n" ++ b ++ b', r', by rw [e1]; simp, .item (parseInt64_eq_some.1 hn) g1 (by omega) g4⟩
  · rintro ⟨b, r, rfl, h⟩
    induction h generalizing r with
    | line h =>
      obtain ⟨w, rfl, h1, h2, h3⟩ := h
      rw [parse_eq]
      have : readToken (w ++ b!"\n" ++ r) = .bad := by
        have := broken_bad (f := (w ++ b!"\n" ++ r).length + 1) (buf := []) (r := r) h1 h2 h3 (by simp; omega)
        unfold readToken
        simpa using this
      unfold step
      rw [this]
    | marker h1 h2 h3 =>
      rename_i d
      rw [parse_eq, e1]
      cases d with
      | nil =>
        rcases step_cases parseItems (13 :: 10 :: r) with ⟨h, _⟩ | ⟨_, e⟩ | ⟨_, _, e⟩ | ⟨c, d, rest, h, h1, _, _⟩
        · rw [show (13 :: 10 :: r : Bytes) = [] ++ 13 :: 10 :: r from rfl, readToken_token lineSafe_nil (by simp)] at h
          cases h
        · exact e
        · exact e
        · exfalso
          cases d with
          | nil => simp at h
          | cons a d =>
            simp at h
            obtain ⟨rfl, rfl, -⟩ := h
            exact (lineSafe_cons.1 h1).2.1 ⟨rfl, rfl⟩
      | cons c d =>
        have : (c :: d) ++ [13, 10] ++ r = c :: d ++ 13 :: 10 :: r := by simp
        rw [this, step_token _ h1 (by simpa using h2), stepBody_bad]
        exact .inl fun hc => h3 c hc rfl
    | number h1 h2 h3 =>
      rename_i c d
      rw [bad_of_line h1 h2, stepBody_bad]
      refine .inr (.inl ⟨h1, ?_⟩)
      cases hp : parseInt64 d with
      | none => rfl
      | some n => exact absurd ⟨n, parseInt64_eq_some.1 hp⟩ h3
    | length h1 h2 =>
      rw [show b!"$" = [36] from by decide, bad_of_line (by decide) (isInt_lineSafe h1), stepBody_bad]
      exact .inr (.inr (.inl ⟨rfl, _, parseInt64_eq_some.2 h1, h2⟩))
    | item h1 h2 h3 h4 ih =>
      rename_i items n t b b'
      rw [show b!"*" = [42] from by decide, show [42] ++ t ++ b!"\r\n" ++ b ++ b' ++ r = [42] ++ t ++ b!"\r\n" ++ (b ++ (b' ++ r)) by simp,
        bad_of_line (by decide) (isInt_lineSafe h1), stepBody_bad]
      exact .inr (.inr (.inr ⟨rfl, n, parseInt64_eq_some.2 h1, by omega, (parseItems_bad _ _).2 ⟨items, b, b' ++ r, rfl, h2, by omega, ih r⟩⟩))

/-- C110: the reader waits for more exactly as long as what has come begins with no object, no refused form and nothing that kills it. -/
theorem C110_waits (s : Bytes) : parse s = .eof ↔ (¬ ∃ b r, s = b ++ r ∧ ((∃ o, Taken o b) ∨ Refused b)) ∧ ¬ ReachesMinusTwo s := by
  rw [← C05_panic_iff]
  constructor
  · intro h
    refine ⟨?_, by rw [h]; simp⟩
    rintro ⟨b, r, hs, ⟨o, ho⟩ | hb⟩
    · rw [(C62_read s o r).2 ⟨b, hs, ho⟩] at h; cases h
    · rw [(C110_refused s).2 ⟨b, r, hs, hb⟩] at h; cases h
  · rintro ⟨h1, h2⟩
    cases h : parse s with
    | eof => rfl
    | bad => obtain ⟨b, r, hs, hb⟩ := (C110_refused s).1 h; exact absurd ⟨b, r, hs, .inr hb⟩ h1
    | ok o r => obtain ⟨b, hs, ho⟩ := (C62_read s o r).1 h; exact absurd ⟨b, r, hs, .inl ⟨o, ho⟩⟩ h1
    | panic => exact absurd h h2
    | stuck => exact absurd h (parse_not_stuck s)

theorem readToken_short {v p q : Bytes} (hv : LineSafe v) (hh : v.head? ≠ some 10) (h : v ++ [13, 10] = p ++ q) (hq : q ≠ []) : readToken p = .eof := by
  have full := readToken_token (rest := []) hv hh
  rw [h] at full
  cases hp : readToken p with
  | eof => rfl
  | bad => rw [readToken_append_bad q hp] at full; cases full
  | panic => exact absurd hp (readToken_not_panic p)
  | stuck => exact absurd hp (readToken_not_stuck p)
  | ok t r =>
    rw [readToken_append_ok q hp] at full
    simp at full
    exact absurd full.2.2 hq

theorem broken_short {b p q : Bytes} (hb : BrokenLine b) (h : b = p ++ q) (hq : q ≠ []) : readToken p = .eof := by
  obtain ⟨w, rfl, h1, h2, h3⟩ := hb
  cases hp : readToken p with
  | eof => rfl
  | panic => exact absurd hp (readToken_not_panic p)
  | stuck => exact absurd hp (readToken_not_stuck p)
  | ok t r =>
    have e := readToken_append_ok q hp
    rw [← h, readToken, broken_bad (r := []) h1 h2 h3 (by simp; omega)] at e
    cases e
  | bad =>
    exfalso
    obtain ⟨b2, r, rfl, w2, rfl, g1, g2, g3⟩ := readTokenLoop_bad hp
    have hw : ∃ z, w = w2 ++ 10 :: z := by
      rcases List.eq_nil_or_concat q with rfl | ⟨q', a, rfl⟩
      · exact absurd rfl hq
      · have h' : w ++ [10] = (w2 ++ 10 :: (r ++ q')) ++ [a] := by simpa using h
        exact ⟨r ++ q', (List.append_inj' h' rfl).1⟩
    obtain ⟨z, rfl⟩ := hw
    rcases g3 with rfl | g3
    · simp at h2
    · obtain ⟨w3, rfl⟩ := List.getLast?_eq_some_iff.1 g3
      exact h1.2 ⟨w3, z, by simp⟩

theorem taken_short {o : Resp} {b p q : Bytes} (hb : Taken o b) (h : b = p ++ q) (hq : q ≠ []) : parse p = .eof := by
  have full := taken_parse hb []
  rw [List.append_nil, h] at full
  apply Classical.byContradiction; intro hne
  have := parse_ext q hne
  rw [full] at this
  cases hp : parse p with
  | ok o' r =>
    rw [hp] at this
    simp [ReadRes.ext] at this
    exact hq this.2.2
  | eof => exact hne hp
  | bad => rw [hp] at this; simp [ReadRes.ext] at this
  | panic => rw [hp] at this; simp [ReadRes.ext] at this
  | stuck => rw [hp] at this; simp [ReadRes.ext] at this

theorem items_short {b' : Bytes} (hb' : ∀ p q, b' = p ++ q → q ≠ [] → parse p = .eof) : ∀ {items : List Resp} {b : Bytes} {n : Nat} {p q : Bytes},
    TakenAll items b → items.length < n → b ++ b' = p ++ q → q ≠ [] → parseItems n p = .eof
  | [], b, n, p, q, h, hn, e, hq => by
    cases h
    obtain ⟨m, rfl⟩ : ∃ m, n = m + 1 := ⟨n - 1, by simp at hn; omega⟩
    rw [parseItems_succ, hb' p q e hq]
  | o :: os, b, n, p, q, h, hn, e, hq => by
    cases h with
    | cons h1 h2 =>
      rename_i b0 bs
      obtain ⟨m, rfl⟩ : ∃ m, n = m + 1 := ⟨n - 1, by simp at hn; omega⟩
      rw [List.append_assoc] at e
      rw [parseItems_succ]
      rcases List.append_eq_append_iff.1 e with ⟨z, rfl, e2⟩ | ⟨z, e1, e2⟩
      · rw [taken_parse h1]
        simp only
        rw [items_short hb' h2 (by simp at hn; omega) e2 hq]
        rfl
      · by_cases hz : z = []
        · subst hz
          rw [List.append_nil] at e1
          subst e1
          have := taken_parse h1 []
          rw [List.append_nil] at this
          rw [this]
          simp only
          rw [items_short hb' h2 (by simp at hn; omega) (p := []) (q := q) (by rw [e2]; rfl) hq]
          rfl
        · rw [taken_short h1 e1 hz]

/-- C110: and as soon as it does: before the last byte of a refused form has come, nothing is refused. -/
theorem C110_soon {b p q : Bytes} (h : Refused b) (e : b = p ++ q) (hq : q ≠ []) : parse p = .eof := by
  have short {p : Bytes} (h : readToken p = .eof) : parse p = .eof := by
    rw [parse_eq]
    unfold step
    rw [h]
  have mark {c : UInt8} (hc : c ∈ b!":$*") : c ≠ 13 ∧ c ≠ 10 := by
    have e2 : b!":$*" = ([58, 36, 42] : Bytes) := by decide
    rw [e2] at hc
    simp at hc
    rcases hc with rfl | rfl | rfl <;> decide
  have line {c : UInt8} {d p q : Bytes} (hc : c ∈ b!":$*") (hd : LineSafe d) (e : [c] ++ d ++ b!"\r\n" = p ++ q) (hq : q ≠ []) : parse p = .eof :=
    short (readToken_short (v := c :: d) (lineSafe_marker (mark hc).1 (mark hc).2 hd) (by simpa using (mark hc).2) (by rw [← e]; rfl) hq)
  induction h generalizing p q with
  | line h => exact short (broken_short h e hq)
  | marker h1 h2 h3 => exact short (readToken_short h1 h2 e hq)
  | number h1 h2 h3 => exact line h1 h2 e hq
  | length h1 h2 => exact line (c := 36) (by decide) (isInt_lineSafe h1) e hq
  | item h1 h2 h3 h4 ih =>
    rename_i items n t b b'
    rw [List.append_assoc] at e
    have go {z : Bytes} (e2 : b ++ b' = z ++ q) : parse ([42] ++ t ++ b!"\r\n" ++ z) = .eof := by
      rw [bad_of_line (by decide) (isInt_lineSafe h1)]
      unfold stepBody
      rw [parseInt64_eq_some.2 h1]
      have := items_short (fun p q e hq => ih e hq) h2 (n := n.toNat) (by omega) e2 hq
      simp [this, arrMap, ReadRes.mapR]
      omega
    rcases List.append_eq_append_iff.1 e with ⟨z, rfl, e2⟩ | ⟨z, e1, e2⟩
    · exact go e2
    · by_cases hz : z = []
      · subst hz
        have := go (z := []) (by rw [e2]; rfl)
        rw [List.append_nil] at this e1
        rw [← e1]
        exact this
      · exact line (c := 42) (by decide) (isInt_lineSafe h1) e1 hz

/-! A request whose second element has a length of -5; a line typed by hand; a request that has not come to its end. -/
example : Refused b!"*2\r\n$3\r\nget\r\n$-5\r\n" :=
  Refused.item (items := [.bulk b!"get"]) (n := 2) (t := b!"2") (b := b!"$3\r\nget\r\n") (b' := b!"$-5\r\n")
    (parseInt64_eq_some.1 (by decide)) (TakenAll.cons (Taken.bulk (d := b!"get") (t := b!"3") 13 10 (parseInt64_eq_some.1 (by decide)) (by decide)) .nil) (by decide)
    (Refused.length (t := b!"-5") (n := -5) (parseInt64_eq_some.1 (by decide)) (by decide))

example : Refused b!"get k\r\n" := Refused.marker (d := b!"get k") (lineSafe_of_noLF (by decide)) (by decide) (by decide)

example : ¬ ∃ b r, b!"*2\r\n$3\r\nget\r\n$5" = b ++ r ∧ ((∃ o, Taken o b) ∨ Refused b) :=
  ((C110_waits _).1 (by rfl)).1

end Verif.Props
