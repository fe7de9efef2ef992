import Verif.Lemmas.SortedSet4
import Verif.Spec.Cells

/-! Where the searches of the skip list stop, exactly. -/

namespace Verif.Skip

open SkipList Spec

section
variable {α : Type} (pass : α → Option Bool) (hgt : α → Nat)

/-- `Spec.past` for rows of anything. -/
def pastG (l : Nat) : List α → Option Nat
  | [] => some 0
  | c :: cs =>
    if l < hgt c then
      match pass c with
      | none => none
      | some false => some 0
      | some true => (pastG l cs).map (· + 1)
    else (pastG l cs).map fun n => if n = 0 then 0 else n + 1

/-- `Spec.seek` for rows of anything. -/
def seekG : Nat → List α → Option Nat
  | 0, _ => some 0
  | l + 1, cs =>
    match pastG pass hgt l cs with
    | none => none
    | some n => (seekG l (cs.drop n)).map (n + ·)

variable {pass hgt}

theorem pastG_skip {l : Nat} {c : α} {cs : List α} (h : ¬ l < hgt c) :
    pastG pass hgt l (c :: cs) = (pastG pass hgt l cs).map fun n => if n = 0 then 0 else n + 1 := by simp only [pastG, h, if_false]
theorem pastG_crash {l : Nat} {c : α} {cs : List α} (h : l < hgt c) (hc : pass c = none) : pastG pass hgt l (c :: cs) = none := by
  simp only [pastG, h, if_true, hc]
theorem pastG_halt {l : Nat} {c : α} {cs : List α} (h : l < hgt c) (hc : pass c = some false) : pastG pass hgt l (c :: cs) = some 0 := by
  simp only [pastG, h, if_true, hc]
theorem pastG_go {l : Nat} {c : α} {cs : List α} (h : l < hgt c) (hc : pass c = some true) :
    pastG pass hgt l (c :: cs) = (pastG pass hgt l cs).map (· + 1) := by simp only [pastG, h, if_true, hc]

end

/-- A crash is no answer. -/
def toOpt : Outcome Bool → Option Bool
  | .ok b => some b
  | _ => none

theorem walk_past {m : SHeap} {t l : Nat} {cond : Nat → Outcome Bool} (hd : ∀ a, cond a ≠ .diverge) :
    ∀ (B : List Nat) (fuel cur : Nat) (rank : Int), Linked m l (cur :: on m l B ++ [t]) → t ∉ B → B.length < fuel →
    (pastG (fun a => toOpt (cond a)) (ht m) l B = none ∧ walk m t cond l fuel cur rank = .panic) ∨
    ∃ k r, pastG (fun a => toOpt (cond a)) (ht m) l B = some k ∧ k ≤ B.length ∧
      walk m t cond l fuel cur rank = .ok (lastOr cur (B.take k), r) ∧ ∀ w ∈ (B.take k).getLast?, l < ht m w := by
  intro B
  induction B with
  | nil =>
    intro fuel cur rank hl _ hf
    obtain ⟨f, rfl⟩ : ∃ f, fuel = f + 1 := ⟨fuel - 1, by simp at hf; omega⟩
    obtain ⟨sp, hx⟩ := level_of_nxt (by simpa [Linked, on] using hl : nxt m l cur = some t)
    exact .inr ⟨0, rank, rfl, by simp, by simp [walk, hx], by simp⟩
  | cons w B ih =>
    intro fuel cur rank hl htB hf
    have hwt : w ≠ t := by rintro rfl; simp at htB
    have htB' : t ∉ B := fun h => htB (by simp [h])
    by_cases hw : l < ht m w
    · obtain ⟨f, rfl⟩ : ∃ f, fuel = f + 1 := ⟨fuel - 1, by simp at hf; omega⟩
      have hon : on m l (w :: B) = w :: on m l B := by simp [on, hw]
      rw [hon] at hl
      have hl' : nxt m l cur = some w ∧ Linked m l (w :: on m l B ++ [t]) := by simpa [Linked] using hl
      obtain ⟨sp, hx⟩ := level_of_nxt hl'.1
      cases hc : cond w with
      | diverge => exact absurd hc (hd w)
      | panic => exact .inl ⟨pastG_crash hw (by simp only [hc, toOpt]), by simp [walk, hx, hwt, hc]⟩
      | ok b =>
        cases b with
        | false => exact .inr ⟨0, rank, pastG_halt hw (by simp only [hc, toOpt]), by simp, by simp [walk, hx, hwt, hc], by simp⟩
        | true =>
          have he : walk m t cond l (f + 1) cur rank = walk m t cond l f w (rank + sp) := by simp [walk, hx, hwt, hc]
          rw [he]
          rcases ih f w (rank + sp) hl'.2 htB' (by simp at hf; omega) with ⟨h1, h2⟩ | ⟨k, r, h1, h2, h3, h4⟩
          · exact .inl ⟨by rw [pastG_go hw (by simp only [hc, toOpt]), h1]; rfl, h2⟩
          · refine .inr ⟨k + 1, r, by rw [pastG_go hw (by simp only [hc, toOpt]), h1]; rfl, by simp; omega, ?_, ?_⟩
            · rw [List.take_succ_cons, lastOr_cons]; exact h3
            · rw [List.take_succ_cons]
              intro v hv
              rcases nil_or_snoc (B.take k) with e | ⟨A, y, e⟩
              · rw [e] at hv; simp at hv; subst hv; exact hw
              · rw [e, ← List.cons_append, List.getLast?_concat] at hv
                exact h4 v (by rw [e, List.getLast?_concat]; exact hv)
    · have hon : on m l (w :: B) = on m l B := by simp [on, hw]
      rw [hon] at hl
      rcases ih fuel cur rank hl htB' (by simp at hf; omega) with ⟨h1, h2⟩ | ⟨k, r, h1, h2, h3, h4⟩
      · exact .inl ⟨by rw [pastG_skip hw, h1]; rfl, h2⟩
      · by_cases hk : k = 0
        · subst hk
          exact .inr ⟨0, r, by rw [pastG_skip hw, h1]; rfl, by simp, by simpa using h3, by simp⟩
        · refine .inr ⟨k + 1, r, by rw [pastG_skip hw, h1]; simp [hk], by simp; omega, ?_, ?_⟩
          · rw [List.take_succ_cons, h3]
            rcases nil_or_snoc (B.take k) with e | ⟨A, y, e⟩
            · have : (B.take k).length = 0 := by rw [e]; rfl
              rw [List.length_take] at this; omega
            · rw [e, ← List.cons_append, lastOr_concat, lastOr_concat]
          · rw [List.take_succ_cons]
            intro v hv
            rcases nil_or_snoc (B.take k) with e | ⟨A, y, e⟩
            · have : (B.take k).length = 0 := by rw [e]; rfl
              rw [List.length_take] at this; omega
            · rw [e, ← List.cons_append, List.getLast?_concat] at hv
              exact h4 v (by rw [e, List.getLast?_concat]; exact hv)

theorem search_pos {m : SHeap} {h t fuel : Nat} {cond : Nat → Outcome Bool} (hd : ∀ a, cond a ≠ .diverge) :
    ∀ (n : Nat) (A B : List Nat) (rank : Int), (∀ l < n, Linked m l (h :: on m l (A ++ B) ++ [t])) → t ∉ B → B.length < fuel →
    (A = [] ∨ n ≤ ht m (lastOr h A)) →
    (seekG (fun a => toOpt (cond a)) (ht m) n B = none ∧ search m t cond fuel n (lastOr h A) rank = .panic) ∨
    ∃ k us, seekG (fun a => toOpt (cond a)) (ht m) n B = some k ∧ k ≤ B.length ∧ search m t cond fuel n (lastOr h A) rank = .ok us ∧
      us.length = n ∧ (n = 0 → k = 0) ∧ (0 < n → ∃ r, us[0]? = some (lastOr h (A ++ B.take k), r)) := by
  intro n
  induction n with
  | zero => intro A B rank _ _ _ _; exact .inr ⟨0, [], rfl, by simp, rfl, rfl, by simp, by simp⟩
  | succ n ih =>
    intro A B rank hl htB hf hA
    have hcur : lastOr h A = lastOr h (on m n A) := by
      rcases nil_or_snoc A with rfl | ⟨A', x, rfl⟩
      · rfl
      · have : n + 1 ≤ ht m x := by simpa using hA
        have hx : on m n (A' ++ [x]) = on m n A' ++ [x] := by rw [on_append]; simp [on]; omega
        simp [hx]
    have hln := hl n (by omega)
    rw [on_append] at hln
    have hw := linked_append hln
    rw [← hcur] at hw
    rcases walk_past hd B fuel (lastOr h A) rank hw htB hf with ⟨h1, h2⟩ | ⟨k, r, h1, h2, h3, h4⟩
    · exact .inl ⟨by simp [seekG, h1], by simp [search, h2]⟩
    · have hA1 : A ++ B.take k = [] ∨ n ≤ ht m (lastOr h (A ++ B.take k)) := by
        rcases nil_or_snoc (B.take k) with e | ⟨C, x, e⟩
        · rw [e, List.append_nil]
          rcases hA with hA | hA
          · exact .inl hA
          · exact .inr (by omega)
        · right
          have := h4 x (by rw [e]; simp)
          rw [e, ← List.append_assoc, lastOr_concat]; omega
      have hAB : ∀ l < n, Linked m l (h :: on m l ((A ++ B.take k) ++ B.drop k) ++ [t]) := by
        intro l hl'
        rw [List.append_assoc, List.take_append_drop]; exact hl l (by omega)
      rw [← lastOr_append] at h3
      rcases ih (A ++ B.take k) (B.drop k) r hAB (fun h => htB (List.mem_of_mem_drop h)) (by simp; omega) hA1 with
        ⟨g1, g2⟩ | ⟨k', us, g1, g2, g3, g4, g5, g6⟩
      · exact .inl ⟨by simp [seekG, h1, g1], by simp [search, h3, g2]⟩
      · refine .inr ⟨k + k', us ++ [(lastOr h (A ++ B.take k), r)], by simp [seekG, h1, g1], by simp at g2; omega,
          by simp [search, h3, g3], by simp [g4], by simp, ?_⟩
        intro _
        rcases Nat.eq_zero_or_pos n with hn | hn
        · have hus : us = [] := List.length_eq_zero_iff.1 (by omega)
          subst hus
          rw [g5 hn]
          exact ⟨r, by simp⟩
        · obtain ⟨r', hr'⟩ := g6 hn
          refine ⟨r', ?_⟩
          rw [List.getElem?_append_left (by omega), hr', List.append_assoc]
          congr 4
          rw [List.take_add]

theorem row_lastOr (h : Nat) (C D : List Nat) : (h :: (C ++ D))[C.length]? = some (lastOr h C) := by
  induction C generalizing h with
  | nil => rfl
  | cons c C ih => rw [lastOr_cons]; simpa using ih c

theorem lastOr_inj {h : Nat} {ns C C' : List Nat} (hn : (h :: ns).Nodup) (hC : C <+: ns) (hC' : C' <+: ns) (e : lastOr h C = lastOr h C') :
    C.length = C'.length := by
  obtain ⟨D, rfl⟩ := hC
  obtain ⟨D', hD'⟩ := hC'
  have h1 := row_lastOr h C D
  have h2 := row_lastOr h C' D'
  rw [hD', ← e, ← h1] at h2
  exact ((List.getElem?_inj (by simp; omega) hn).1 h2.symm)

/-- The search of all levels: it crashes, or stops after the number of nodes that `seekG` says. -/
theorem search_seek {s : SkipList} {ns : List Nat} (h : Rep s ns) {cond : Nat → Outcome Bool} (hd : ∀ a, cond a ≠ .diverge) :
    (seekG (fun a => toOpt (cond a)) (ht s.heap) s.level ns = none ∧ search s.heap s.tail cond s.fresh s.level s.head 0 = .panic) ∨
    ∃ k, seekG (fun a => toOpt (cond a)) (ht s.heap) s.level ns = some k ∧ k ≤ ns.length ∧
      ∀ C, C <+: ns → Stops s cond (lastOr s.head C) → C.length = k := by
  have := search_pos (m := s.heap) (h := s.head) (t := s.tail) (fuel := s.fresh) hd s.level [] ns 0
    (fun l hl => by simpa using h.linked l (by have := h.lev.2; omega)) h.tail_notin h.count (.inl rfl)
  simp only [lastOr_nil, List.nil_append] at this
  rcases this with h1 | ⟨k, us, h1, h2, h3, -, -, h6⟩
  · exact .inl h1
  · refine .inr ⟨k, h1, h2, ?_⟩
    rintro C hC ⟨us', r', e1, e2⟩
    rw [h3] at e1; cases e1
    obtain ⟨r, hr⟩ := h6 (by have := h.lev.1; omega)
    rw [e2] at hr; simp at hr
    have := lastOr_inj h.nodup' hC (List.take_prefix k ns) hr.1
    rw [this]; simp; omega

theorem stops_ok {s : SkipList} {cond : Nat → Outcome Bool} {p : Nat} (h : Stops s cond p) :
    search s.heap s.tail cond s.fresh s.level s.head 0 ≠ .panic := by
  obtain ⟨us, r, e, -⟩ := h
  rw [e]; simp

/-! ### Searches that only stop at one node -/

section
variable {α : Type} {pass : α → Option Bool} {hgt : α → Nat}

theorem pastG_low {l : Nat} : ∀ {B : List α}, (∀ b ∈ B, hgt b ≤ l) → pastG pass hgt l B = some 0 := by
  intro B
  induction B with
  | nil => intro _; rfl
  | cons b B ih =>
    intro h
    have hb := h b (by simp)
    have : ¬ l < hgt b := by omega
    rw [pastG_skip this, ih (fun c hc => h c (by simp [hc]))]; rfl

theorem pastG_all {l : Nat} : ∀ {B : List α}, (∀ b ∈ B, pass b = some true) →
    ∃ k, pastG pass hgt l B = some k ∧ k ≤ B.length ∧ ∀ b ∈ B.drop k, hgt b ≤ l := by
  intro B
  induction B with
  | nil => intro _; exact ⟨0, rfl, by simp, by simp⟩
  | cons b B ih =>
    intro h
    obtain ⟨k, h1, h2, h3⟩ := ih (fun c hc => h c (by simp [hc]))
    by_cases hb : l < hgt b
    · exact ⟨k + 1, by rw [pastG_go hb (h b (by simp)), h1]; rfl, by simp; omega, by simpa using h3⟩
    · by_cases hk : k = 0
      · subst hk
        refine ⟨0, by rw [pastG_skip hb, h1]; rfl, by simp, ?_⟩
        intro c hc
        rcases List.mem_cons.1 hc with rfl | hc
        · omega
        · exact h3 c (by simpa using hc)
      · exact ⟨k + 1, by rw [pastG_skip hb, h1]; simp [hk], by simp; omega, by simpa using h3⟩

theorem seekG_all : ∀ (n : Nat) {B : List α}, 1 ≤ n → (∀ b ∈ B, 1 ≤ hgt b) → (∀ b ∈ B, pass b = some true) →
    seekG pass hgt n B = some B.length := by
  intro n
  induction n with
  | zero => intro B h; omega
  | succ n ih =>
    intro B _ h1 h2
    obtain ⟨k, k1, k2, k3⟩ := pastG_all (hgt := hgt) (l := n) h2
    rcases Nat.eq_zero_or_pos n with rfl | hn
    · have : B.drop k = [] := by
        cases e : B.drop k with
        | nil => rfl
        | cons b _ =>
          have hb : b ∈ B.drop k := by rw [e]; simp
          have := k3 b hb
          have := h1 b (List.mem_of_mem_drop hb)
          omega
      have : B.length ≤ k := by simpa using this
      simp [seekG, k1]; omega
    · have := ih (B := B.drop k) hn (fun b hb => h1 b (List.mem_of_mem_drop hb)) (fun b hb => h2 b (List.mem_of_mem_drop hb))
      simp [seekG, k1, this]; omega

theorem pastG_stop {l : Nat} {c : α} {D : List α} (hc : pass c = some false) (hl : l < hgt c) :
    ∀ {C : List α}, (∀ b ∈ C, pass b = some true) → ∃ k, pastG pass hgt l (C ++ c :: D) = some k ∧ k ≤ C.length ∧ ∀ b ∈ C.drop k, hgt b ≤ l := by
  intro C
  induction C with
  | nil => intro _; exact ⟨0, pastG_halt hl hc, by simp, by simp⟩
  | cons b C ih =>
    intro h
    obtain ⟨k, h1, h2, h3⟩ := ih (fun c hc => h c (by simp [hc]))
    by_cases hb : l < hgt b
    · exact ⟨k + 1, by rw [List.cons_append, pastG_go hb (h b (by simp)), h1]; rfl, by simp; omega, by simpa using h3⟩
    · by_cases hk : k = 0
      · subst hk
        refine ⟨0, by rw [List.cons_append, pastG_skip hb, h1]; rfl, by simp, ?_⟩
        intro c hc
        rcases List.mem_cons.1 hc with rfl | hc
        · omega
        · exact h3 c (by simpa using hc)
      · exact ⟨k + 1, by rw [List.cons_append, pastG_skip hb, h1]; simp [hk], by simp; omega, by simpa using h3⟩

theorem pastG_over {l : Nat} {c : α} {D : List α} (hl : hgt c ≤ l) (hD : ∀ b ∈ D, pass b = some true) :
    ∀ {C : List α}, (∀ b ∈ C, pass b = some true) → ∃ k, pastG pass hgt l (C ++ c :: D) = some k ∧ k ≤ (C ++ c :: D).length ∧
      ((∀ b ∈ D, hgt b ≤ l) → k ≤ C.length) ∧ ((∃ b ∈ D, l < hgt b) → C.length < k) := by
  intro C
  induction C with
  | nil =>
    intro _
    have hc : ¬ l < hgt c := by omega
    obtain ⟨k, h1, h2, h3⟩ := pastG_all (hgt := hgt) (l := l) hD
    by_cases hk : k = 0
    · subst hk
      refine ⟨0, by rw [List.nil_append, pastG_skip hc, h1]; rfl, by simp, by simp, ?_⟩
      rintro ⟨b, hb, hlt⟩
      have := h3 b (by simpa using hb)
      omega
    · refine ⟨k + 1, by rw [List.nil_append, pastG_skip hc, h1]; simp [hk], by simp; omega, ?_, by simp⟩
      intro hlow
      rw [pastG_low hlow] at h1; simp at h1; omega
  | cons b C ih =>
    intro h
    obtain ⟨k, h1, h2, h3, h4⟩ := ih (fun c hc => h c (by simp [hc]))
    by_cases hb : l < hgt b
    · refine ⟨k + 1, by rw [List.cons_append, pastG_go hb (h b (by simp)), h1]; rfl, by simp at h2 ⊢; omega, ?_, ?_⟩
      · intro hx; have := h3 hx; simp; omega
      · intro hx; have := h4 hx; simp; omega
    · by_cases hk : k = 0
      · subst hk
        refine ⟨0, by rw [List.cons_append, pastG_skip hb, h1]; rfl, by simp, by simp, ?_⟩
        intro hx; have := h4 hx; omega
      · refine ⟨k + 1, by rw [List.cons_append, pastG_skip hb, h1]; simp [hk], by simp at h2 ⊢; omega, ?_, ?_⟩
        · intro hx; have := h3 hx; simp; omega
        · intro hx; have := h4 hx; simp; omega

theorem seekG_del {c : α} {D : List α} (hc : pass c = some false) (hD : ∀ b ∈ D, pass b = some true) : ∀ (n : Nat) {C : List α}, 1 ≤ n →
    (∀ b ∈ C ++ c :: D, 1 ≤ hgt b) → (∀ b ∈ C, pass b = some true) →
    ((hgt c < n ∧ ∃ b ∈ D, hgt c < hgt b) → seekG pass hgt n (C ++ c :: D) = some (C ++ c :: D).length) ∧
    (¬ (hgt c < n ∧ ∃ b ∈ D, hgt c < hgt b) → seekG pass hgt n (C ++ c :: D) = some C.length) := by
  intro n
  induction n with
  | zero => intro C h; omega
  | succ n ih =>
    intro C _ h1 hC
    have hc1 := h1 c (by simp)
    by_cases hlc : n < hgt c
    · obtain ⟨k, k1, k2, k3⟩ := pastG_stop (D := D) hc hlc hC
      refine ⟨fun h => by omega, fun _ => ?_⟩
      have hdrop : (C ++ c :: D).drop k = C.drop k ++ c :: D := by rw [List.drop_append_of_le_length k2]
      rcases Nat.eq_zero_or_pos n with rfl | hn
      · have : C.drop k = [] := by
          cases e : C.drop k with
          | nil => rfl
          | cons b _ =>
            have hb : b ∈ C.drop k := by rw [e]; simp
            have := k3 b hb
            have := h1 b (by simp [List.mem_of_mem_drop hb])
            omega
        have : C.length ≤ k := by simpa using this
        simp [seekG, k1]; omega
      · have := (ih (C := C.drop k) hn (fun b hb => h1 b (by
          rcases List.mem_append.1 hb with hb | hb
          · simp [List.mem_of_mem_drop hb]
          · simp only [List.mem_append]; exact .inr hb)) (fun b hb => hC b (List.mem_of_mem_drop hb))).2 (by omega)
        simp only [seekG, k1, hdrop, this]; simp; omega
    · have hn : 1 ≤ n := by omega
      obtain ⟨k, k1, k2, k3, k4⟩ := pastG_over (hgt := hgt) (l := n) (c := c) (by omega) hD hC
      by_cases hex : ∃ b ∈ D, n < hgt b
      · have hk := k4 hex
        refine ⟨fun _ => ?_, fun h => ?_⟩
        · have hsub : ∀ b ∈ (C ++ c :: D).drop k, b ∈ D := by
            intro b hb
            have e : (C ++ c :: D).drop k = D.drop (k - (C.length + 1)) := by
              have : C ++ c :: D = (C ++ [c]) ++ D := by simp
              rw [this, List.drop_append, List.drop_of_length_le (by simp; omega)]; simp
            rw [e] at hb; exact List.mem_of_mem_drop hb
          have := seekG_all (hgt := hgt) n hn (B := (C ++ c :: D).drop k) (fun b hb => h1 b (List.mem_of_mem_drop hb)) (fun b hb => hD b (hsub b hb))
          simp only [seekG, k1, this]; simp at k2 ⊢; omega
        · obtain ⟨b, hb, hlt⟩ := hex
          exact absurd ⟨by omega, b, hb, by omega⟩ h
      · have hlow : ∀ b ∈ D, hgt b ≤ n := fun b hb => by
          by_contra hx; exact hex ⟨b, hb, by omega⟩
        have hk := k3 hlow
        have hdrop : (C ++ c :: D).drop k = C.drop k ++ c :: D := by rw [List.drop_append_of_le_length hk]
        have hiff : (hgt c < n + 1 ∧ ∃ b ∈ D, hgt c < hgt b) ↔ (hgt c < n ∧ ∃ b ∈ D, hgt c < hgt b) := by
          constructor
          · rintro ⟨-, b, hb, hlt⟩; have := hlow b hb; exact ⟨by omega, b, hb, hlt⟩
          · rintro ⟨h, hx⟩; exact ⟨by omega, hx⟩
        have := ih (C := C.drop k) hn (fun b hb => h1 b (by
          rcases List.mem_append.1 hb with hb | hb
          · simp [List.mem_of_mem_drop hb]
          · simp only [List.mem_append]; exact .inr hb)) (fun b hb => hC b (List.mem_of_mem_drop hb))
        rw [hiff]
        refine ⟨fun h => ?_, fun h => ?_⟩
        · simp only [seekG, k1, hdrop, this.1 h]; simp; omega
        · simp only [seekG, k1, hdrop, this.2 h]; simp; omega

end

/-! ### The row of cells that a skip list shows -/

/-- The cell of a node. -/
def cellOf (m : SHeap) (a : Nat) : Cell := ⟨(m a).score, (m a).data.map Str.data, ht m a⟩

theorem past_map {m : SHeap} {x : F64} {e : Bytes} {l : Nat} (B : List Nat) :
    past x e l (B.map (cellOf m)) = pastG (fun a => (cellOf m a).passed x e) (ht m) l B := by
  induction B with
  | nil => rfl
  | cons b B ih => simp only [List.map_cons, past, pastG, ih]; rfl

theorem seek_map {m : SHeap} {x : F64} {e : Bytes} : ∀ (n : Nat) (B : List Nat),
    seek x e n (B.map (cellOf m)) = seekG (fun a => (cellOf m a).passed x e) (ht m) n B := by
  intro n
  induction n with
  | zero => intro B; rfl
  | succ n ih =>
    intro B
    simp only [seek, seekG, past_map]
    cases pastG (fun a => (cellOf m a).passed x e) (ht m) n B with
    | none => rfl
    | some k => simp only [← List.map_drop, ih]

theorem compareTo_neg (d e : Str) : d.compareTo e < 0 ↔ d.data ≠ [] ∧ LexLt d.data e.data := by
  change lexicalCompare d.data e.data < 0 ↔ _
  generalize d.data = a
  generalize e.data = b
  cases a with
  | nil =>
    cases b with
    | nil => rw [(Props.C48_value [] 0 0 [] []).2.2.2.2]; simp
    | cons b bs => rw [(Props.C48_empty b bs).1]; simp
  | cons a as =>
    cases b with
    | nil =>
      rw [(Props.C48_empty a as).2]
      simp only [Int.lt_irrefl, false_iff, not_and]
      intro _ h; cases h
    | cons b bs => rw [(Props.C48_order_partial (a :: as) (b :: bs) (by simp)).1]; simp

theorem passed_eq {m : SHeap} {x : F64} {e : Str} (a : Nat) : (cellOf m a).passed x e.data = toOpt (goesBefore m x e a) := by
  unfold Cell.passed goesBefore cellOf
  simp only
  by_cases h1 : ScoreLt (m a).score x
  · rw [if_pos h1, if_pos (F64.lt_iff.2 h1)]; rfl
  · rw [if_neg h1, if_neg (fun h => h1 (F64.lt_iff.1 h))]
    by_cases h2 : (m a).score = x ∧ x ≠ .nan
    · rw [if_pos h2, if_pos (F64.eq_iff.2 ⟨h2.1, by rw [h2.1]; exact h2.2⟩)]
      cases (m a).data with
      | none => rfl
      | some d => simp only [Option.map_some, toOpt, compareTo_neg]
    · rw [if_neg h2, if_neg (fun h => h2 ⟨(F64.eq_iff.1 h).1, by have := F64.eq_iff.1 h; rw [← this.1]; exact this.2⟩)]; rfl

theorem top_eq {cs : List Cell} {n : Nat} (h1 : 1 ≤ n) (h2 : ∀ c ∈ cs, c.height ≤ n) (h3 : n = 1 ∨ ∃ c ∈ cs, c.height = n) : top cs = n := by
  have hle : ∀ (cs : List Cell), (∀ c ∈ cs, c.height ≤ n) → top cs ≤ n := by
    intro cs
    induction cs with
    | nil => intro _; simpa [top] using h1
    | cons c cs ih =>
      intro h
      have := ih (fun c hc => h c (by simp [hc]))
      have := h c (by simp)
      simp only [top, List.foldr_cons] at *
      omega
  have hone : ∀ (cs : List Cell), 1 ≤ top cs := by
    intro cs
    induction cs with
    | nil => simp [top]
    | cons c cs ih => simp only [top, List.foldr_cons] at *; omega
  have hge : ∀ (cs : List Cell) c, c ∈ cs → c.height ≤ top cs := by
    intro cs
    induction cs with
    | nil => intro c hc; simp at hc
    | cons c cs ih =>
      intro d hd
      rcases List.mem_cons.1 hd with rfl | hd
      · simp only [top, List.foldr_cons]; omega
      · have := ih d hd; simp only [top, List.foldr_cons] at *; omega
  have := hle cs h2
  have := hone cs
  rcases h3 with rfl | ⟨c, hc, rfl⟩
  · omega
  · have := hge cs c hc; omega

/-- The skip list `s` with the nodes `ns` is the row of cells `c`. -/
structure Shows (s : SkipList) (ns : List Nat) (c : Shelf) : Prop where
  rep : Rep s ns
  cells : c.cells = ns.map (cellOf s.heap)
  level : s.level = top c.cells
  prev : ∃ p, (s.heap s.tail).prev = some p ∧ (p = s.head → ns = []) ∧ (p ∈ ns → lastOr s.head ns = p ∧ (s.heap p).data ≠ none) ∧
    (c.back = true ↔ p ∈ ns)

section
variable {s : SkipList} {ns : List Nat} {c : Shelf}

/-- The node with an entry is the one that the map of the code knows. -/
theorem live_iff (h : Rep s ns) {e : Bytes} {a : Nat} : (a ∈ ns ∧ (s.heap a).data.map Str.data = some e) ↔ s.set.get e = some a := by
  rw [h.set]
  constructor
  · rintro ⟨h1, h2⟩
    obtain ⟨d, hd, he⟩ := Option.map_eq_some_iff.1 h2
    exact ⟨h1, d, hd, he⟩
  · rintro ⟨h1, d, hd, rfl⟩
    exact ⟨h1, by simp [hd]⟩

theorem shows_find (h : Shows s ns c) (e : Bytes) : c.score e = (s.set.get e).map fun a => (s.heap a).score := by
  unfold Shelf.score
  rw [h.cells, List.find?_map, Option.map_map]
  have : ns.find? ((fun c : Cell => decide (c.entry = some e)) ∘ cellOf s.heap) = s.set.get e := by
    cases hg : s.set.get e with
    | none =>
      rw [List.find?_eq_none]
      intro a ha hx
      simp [cellOf] at hx
      have := (live_iff h.rep).1 ⟨ha, by simpa using hx⟩
      rw [hg] at this; simp at this
    | some a =>
      cases hf : ns.find? ((fun c : Cell => decide (c.entry = some e)) ∘ cellOf s.heap) with
      | none =>
        rw [List.find?_eq_none] at hf
        obtain ⟨h1, h2⟩ := (live_iff h.rep).2 hg
        exact absurd (by simpa [cellOf] using h2) (hf a h1)
      | some b =>
        have hb1 := List.mem_of_find?_eq_some hf
        have hb2 := List.find?_some hf
        have := (live_iff (e := e) h.rep).1 ⟨hb1, by simpa [cellOf] using hb2⟩
        rw [hg] at this; cases this; rfl
  rw [this]; rfl

theorem shows_size (h : Shows s ns c) : c.size = s.set.length := by
  unfold Shelf.size
  rw [h.cells, List.countP_map]
  have h1 : ns.countP ((fun c : Cell => c.entry.isSome) ∘ cellOf s.heap) = (ns.filterMap fun a => (s.heap a).data.map Str.data).length := by
    rw [List.length_filterMap_eq_countP]; rfl
  rw [h1, ← GoMap.length_keys]
  apply List.Perm.length_eq
  rw [List.perm_ext_iff_of_nodup _ h.rep.wf]
  · intro e
    rw [List.mem_filterMap, GoMap.mem_keys_iff]
    constructor
    · rintro ⟨a, ha, he⟩; exact ⟨a, (live_iff h.rep).1 ⟨ha, he⟩⟩
    · rintro ⟨a, ha⟩; exact ⟨a, (live_iff h.rep).2 ha⟩
  · unfold List.Nodup
    rw [List.pairwise_filterMap]
    refine List.Pairwise.imp_of_mem ?_ (List.nodup_cons.1 h.rep.nodup').2
    intro a b ha hb hne e he e' he' heq
    subst heq
    have h1 := (live_iff h.rep).1 ⟨ha, he⟩
    have h2 := (live_iff h.rep).1 ⟨hb, he'⟩
    rw [h1] at h2; cases h2; exact hne rfl

theorem shows_new : Shows SkipList.new [] ⟨[], false⟩ :=
  ⟨rep_new, rfl, rfl, 0, rfl, fun _ => rfl, by simp, by simp⟩

theorem shows_insert (h : Shows s ns c) {x : F64} {e : Str} (k : Nat) :
    (SkipList.insert s x e k = .panic ∧ c.insert x e.data k = none) ∨
    ∃ s' ns' c', SkipList.insert s x e k = .ok s' ∧ c.insert x e.data k = some c' ∧ Shows s' ns' c' := by
  unfold Shelf.insert
  rw [shows_find h]
  cases hg : s.set.get e.data with
  | some a =>
    refine .inr ⟨s, ns, c, ?_, by simp, h⟩
    unfold SkipList.insert; rw [hg]
  | none =>
    simp only [Option.map_none, Option.isSome_none, Bool.false_eq_true, if_false]
    have hseek : seek x e.data (top c.cells) c.cells = seekG (fun a => toOpt (goesBefore s.heap x e a)) (ht s.heap) s.level ns := by
      rw [← h.level, h.cells, seek_map]; simp only [passed_eq]
    rw [hseek]
    rcases search_seek h.rep (goesBefore_ne_diverge s.heap x e) with ⟨h1, h2⟩ | ⟨n, h1, h2, h3⟩
    · rcases insert_spec h.rep (sc := x) (e := e) k hg with ⟨g1, -, -⟩ | ⟨s', C, D, rfl, -, -, -, -, -, -, -, -, -, -, -, -, -, -, -, g⟩
      · exact .inl ⟨g1, by rw [h1]; rfl⟩
      · exact absurd h2 (stops_ok g)
    · rcases insert_spec h.rep (sc := x) (e := e) k hg with ⟨-, -, g⟩ |
        ⟨s', C, D, rfl, g1, g2, g3, g4, g5, g6, g7, g8, g9, g10, g11, g12, g13, -, -, g⟩
      · exfalso
        have := search_pos (m := s.heap) (h := s.head) (t := s.tail) (fuel := s.fresh) (goesBefore_ne_diverge s.heap x e) s.level [] ns 0
          (fun l hl => by simpa using h.rep.linked l (by have := h.rep.lev.2; omega)) h.rep.tail_notin h.rep.count (.inl rfl)
        simp only [lastOr_nil, List.nil_append] at this
        rcases this with ⟨e1, -⟩ | ⟨_, _, -, -, e2, -⟩
        · rw [h1] at e1; simp at e1
        · rw [g] at e2; simp at e2
      · have hn := h3 C ⟨D, rfl⟩ g
        subst hn
        have hf : ∀ a ∈ C ++ D, a ≠ s.fresh := by rintro a ha rfl; exact h.rep.fresh_notin (by simp at ha ⊢; tauto)
        have hcell : ∀ a ∈ C ++ D, cellOf s'.heap a = cellOf s.heap a := by
          intro a ha
          unfold cellOf
          rw [(g8 a (hf a ha)).1, (g8 a (hf a ha)).2, g11 a (hf a ha)]
        have hmapC : C.map (cellOf s'.heap) = C.map (cellOf s.heap) := List.map_congr_left fun a ha => hcell a (by simp [ha])
        have hmapD : D.map (cellOf s'.heap) = D.map (cellOf s.heap) := List.map_congr_left fun a ha => hcell a (by simp [ha])
        have hdraw : getRandomLevel k = min 32 (k + 1) := by unfold getRandomLevel maxLevel; split <;> omega
        have hcells : c.cells.take C.length ++ ⟨x, some e.data, max (top c.cells) (min 32 (k + 1))⟩ :: c.cells.drop C.length =
            (C ++ s.fresh :: D).map (cellOf s'.heap) := by
          rw [h.cells, List.map_append, List.map_append, List.map_cons, hmapC, hmapD]
          rw [List.take_left' (by simp), List.drop_left' (by simp)]
          congr 2
          unfold cellOf
          rw [g9, g10, g12, g7, hdraw, ← List.map_append]
          change _ = (⟨x, some e.data, max s.level (min 32 (k + 1))⟩ : Cell)
          rw [h.level, h.cells]; rfl
        refine .inr ⟨s', C ++ s.fresh :: D, _, g1, by rw [h1]; rfl, g2, hcells, ?_, ?_⟩
        · simp only
          rw [hcells]
          symm
          apply top_eq g2.lev.1
          · intro d hd
            obtain ⟨a, ha, rfl⟩ := List.mem_map.1 hd
            exact (g2.hts a ha).2
          · exact .inr ⟨cellOf s'.heap s.fresh, List.mem_map.2 ⟨s.fresh, by simp, rfl⟩, g12⟩
        · obtain ⟨p, p1, p2, p3, p4⟩ := h.prev
          rw [g5, g4]
          by_cases hD : D = []
          · subst hD
            refine ⟨s.fresh, by rw [g13, if_pos rfl], ?_, ?_, ?_⟩
            · intro e; exact absurd (by rw [e]; simp) h.rep.fresh_notin
            · intro _; exact ⟨by simp, by rw [g10]; simp⟩
            · simp [h.cells]
          · have hpf : p ≠ s.fresh := by
              obtain ⟨q, q1, q2, -⟩ := h.rep.prev
              rw [p1] at q1; cases q1; omega
            have hlen : ¬ C.length = c.cells.length := by
              rw [h.cells]; simp; exact hD
            refine ⟨p, by rw [g13, if_neg hD]; exact p1, ?_, ?_, ?_⟩
            · intro e; have := p2 e; simp at this; exact absurd this.2 hD
            · intro hp
              have hp' : p ∈ C ++ D := by simp at hp ⊢; tauto
              obtain ⟨q1, q2⟩ := p3 hp'
              refine ⟨?_, by rw [(g8 p hpf).2]; exact q2⟩
              rw [← q1]
              obtain ⟨D', y, rfl⟩ := (nil_or_snoc D).resolve_left hD
              rw [← List.cons_append, ← List.append_assoc, ← List.append_assoc, lastOr_concat, lastOr_concat]
            · simp only [Bool.or_eq_true, decide_eq_true_eq, hlen, or_false, p4]
              simp [hpf]

theorem takeOut_map {m m' : SHeap} {e : Bytes} {a : Nat} {D : List Nat} (ha : (cellOf m a).entry = some e) : ∀ {C : List Nat},
    (∀ b ∈ C, (cellOf m b).entry ≠ some e) → (∀ b ∈ C ++ D, cellOf m' b = cellOf m b) →
    ((∃ b ∈ D, ht m a < ht m b) → cellOf m' a = { cellOf m a with entry := none } →
      takeOut e ((C ++ a :: D).map (cellOf m)) = (C ++ a :: D).map (cellOf m')) ∧
    ((¬ ∃ b ∈ D, ht m a < ht m b) → takeOut e ((C ++ a :: D).map (cellOf m)) = (C ++ D).map (cellOf m')) := by
  intro C
  induction C with
  | nil =>
    intro _ h2
    have hD : D.map (cellOf m') = D.map (cellOf m) := List.map_congr_left fun b hb => h2 b (by simpa using hb)
    have hiff : (∃ d ∈ D.map (cellOf m), (cellOf m a).height < d.height) ↔ ∃ b ∈ D, ht m a < ht m b := by
      simp [cellOf]
    simp only [List.nil_append, List.map_cons, takeOut, ha, if_true, hiff, hD]
    exact ⟨fun h hc => by rw [if_pos h, hc], fun h => by rw [if_neg h]⟩
  | cons b C ih =>
    intro h1 h2
    have hb := h1 b (by simp)
    have hbc := h2 b (by simp)
    obtain ⟨i1, i2⟩ := ih (fun d hd => h1 d (by simp [hd])) (fun d hd => h2 d (by simp at hd ⊢; tauto))
    simp only [List.cons_append, List.map_cons, takeOut, hb, if_false, hbc]
    exact ⟨fun h hc => by rw [i1 h hc], fun h => by rw [i2 h]⟩

theorem shows_delete (h : Shows s ns c) {e : Bytes} {a : Nat} (hg : s.set.get e = some a) :
    ∃ s' ns', deleteNode s a = .ok s' ∧ Shows s' ns' (c.remove e) ∧ s'.set.get e = none := by
  obtain ⟨ha, d, hd, rfl⟩ := get_node h.rep hg
  obtain ⟨s', ns', h1, h2, h3, h4, h5, h6, h7, h8, h9, h10, h11, h12, h13⟩ := deleteNode_spec h.rep ha hd
  refine ⟨s', ns', h1, ?_, by rw [h3, GoMap.get_erase, if_pos rfl]⟩
  obtain ⟨C, D, hns⟩ := List.append_of_mem ha
  have hnd : (C ++ a :: D).Nodup := by rw [← hns]; exact (List.nodup_cons.1 h.rep.nodup').2
  have hneC : ∀ b ∈ C, b ≠ a := by
    rintro b hb rfl
    exact (List.nodup_append.1 hnd).2.2 b hb b (by simp) rfl
  have hneD : ∀ b ∈ D, b ≠ a := by
    rintro b hb rfl
    exact (List.nodup_cons.1 (List.nodup_append.1 hnd).2.1).1 hb
  -- where the search ends
  have hpos := seekG_del (pass := fun b => toOpt (.ok (decide (b ≠ a)))) (hgt := ht s.heap) (c := a) (D := D) (by simp [toOpt])
    (fun b hb => by simp [toOpt, hneD b hb]) s.level (C := C) h.rep.lev.1 (fun b hb => (h.rep.hts b (by rw [hns]; exact hb)).1)
    (fun b hb => by simp [toOpt, hneC b hb])
  rw [← hns] at hpos
  have hlev : (ht s.heap a < s.level ∧ ∃ b ∈ D, ht s.heap a < ht s.heap b) ↔ ∃ b ∈ D, ht s.heap a < ht s.heap b := by
    constructor
    · exact fun h => h.2
    · rintro ⟨b, hb, hlt⟩
      have := (h.rep.hts b (by rw [hns]; simp [hb])).2
      exact ⟨by omega, b, hb, hlt⟩
  rw [hlev] at hpos
  have hcase : (ns' = C ++ D ∧ ¬ ∃ b ∈ D, ht s.heap a < ht s.heap b) ∨ (ns' = ns ∧ ∃ b ∈ D, ht s.heap a < ht s.heap b) := by
    rcases search_seek h.rep (cond := fun b => .ok (decide (b ≠ a))) (by simp) with ⟨q1, -⟩ | ⟨k, q1, -, q3⟩
    · by_cases hx : ∃ b ∈ D, ht s.heap a < ht s.heap b
      · rw [hpos.1 hx] at q1; simp at q1
      · rw [hpos.2 hx] at q1; simp at q1
    · rcases h11 with ⟨C', D', e1, e2, e3⟩ | ⟨e1, -, e3⟩
      · have hk := q3 C' ⟨a :: D', e1.symm⟩ e3
        have hCC : C' = C ∧ D' = D := by
          have hx : C'.length = C.length := by
            have g1 : ns[C'.length]? = some a := by rw [e1]; simp
            have g2 : ns[C.length]? = some a := by rw [hns]; simp
            have hnn : ns.Nodup := by rw [hns]; exact hnd
            exact (List.getElem?_inj (by rw [e1]; simp) hnn).1 (by rw [g1, g2])
          have := List.append_inj (e1.symm.trans hns) hx
          simp at this; exact this
        rw [hCC.1, hCC.2] at e2
        rw [hCC.1] at hk
        refine .inl ⟨e2, fun hx => ?_⟩
        rw [hpos.1 hx, ← hk, hns] at q1
        simp at q1
      · have hk := q3 ns ⟨[], by simp⟩ e3
        refine .inr ⟨e1, ?_⟩
        by_contra hx
        rw [hpos.2 hx, ← hk, hns] at q1
        simp at q1
  have hcell : ∀ b ∈ C ++ D, cellOf s'.heap b = cellOf s.heap b := by
    intro b hb
    have hba : b ≠ a := by
      rcases List.mem_append.1 hb with hb | hb
      · exact hneC b hb
      · exact hneD b hb
    unfold cellOf
    rw [h8, h9, h10, if_neg hba]
  have hcella : cellOf s'.heap a = { cellOf s.heap a with entry := none } := by
    unfold cellOf
    rw [h8, h9, h10, if_pos rfl]; rfl
  have hent : ∀ b ∈ ns, (cellOf s.heap b).entry = some d.data → b = a := by
    intro b hb hx
    have := (live_iff h.rep).1 ⟨hb, hx⟩
    rw [hg] at this; cases this; rfl
  have henta : (cellOf s.heap a).entry = some d.data := by simp [cellOf, hd]
  obtain ⟨t1, t2⟩ := takeOut_map (m := s.heap) (m' := s'.heap) (D := D) henta (C := C)
    (fun b hb hx => hneC b hb (hent b (by rw [hns]; simp [hb]) hx)) hcell
  have hcells : (c.remove d.data).cells = ns'.map (cellOf s'.heap) := by
    unfold Shelf.remove
    simp only
    rw [h.cells, hns]
    rcases hcase with ⟨e1, e2⟩ | ⟨e1, e2⟩
    · rw [t2 e2, e1]
    · rw [t1 e2 hcella, e1, hns]
  refine ⟨h2, hcells, ?_, ?_⟩
  · rw [hcells]
    symm
    apply top_eq h2.lev.1
    · intro x hx
      obtain ⟨b, hb, rfl⟩ := List.mem_map.1 hx
      exact (h2.hts b hb).2
    · rcases h13 with h13 | ⟨b, hb, hx⟩
      · exact .inl h13
      · exact .inr ⟨cellOf s'.heap b, List.mem_map.2 ⟨b, hb, rfl⟩, hx⟩
  · obtain ⟨p, p1, p2, p3, p4⟩ := h.prev
    rw [h5, h4]
    have hlast : (c.cells.getLast?.bind (·.entry) = some d.data) ↔ lastOr s.head ns = a := by
      rw [h.cells]
      rcases nil_or_snoc ns with e | ⟨A, y, e⟩
      · rw [e] at hns; simp at hns
      · rw [e]; simp only [List.map_append, List.map_cons, List.map_nil, List.getLast?_concat, Option.bind_some, lastOr_concat]
        exact ⟨fun hx => hent y (by rw [e]; simp) hx, fun hx => by rw [hx]; exact henta⟩
    have hpa : p ∈ ns' → p ∈ ns ∧ p ≠ a := by
      rcases hcase with ⟨e1, -⟩ | ⟨e1, e2⟩
      · intro hp
        rw [e1] at hp
        rcases List.mem_append.1 hp with hp | hp
        · exact ⟨by rw [hns]; exact List.mem_append_left _ hp, hneC p hp⟩
        · exact ⟨by rw [hns]; exact List.mem_append_right _ (List.mem_cons_of_mem _ hp), hneD p hp⟩
      · intro hp
        rw [e1] at hp
        refine ⟨hp, ?_⟩
        rintro rfl
        have hl := (p3 hp).1
        obtain ⟨b, hb, -⟩ := e2
        obtain ⟨D', y, rfl⟩ := (nil_or_snoc D).resolve_left (by rintro rfl; simp at hb)
        rw [hns, ← List.cons_append, ← List.append_assoc, lastOr_concat] at hl
        exact hneD y (by simp) hl
    refine ⟨p, by rw [h12]; exact p1, ?_, ?_, ?_⟩
    · intro e
      have := p2 e
      rw [this] at ha; simp at ha
    · intro hp
      obtain ⟨q1, q2⟩ := hpa hp
      obtain ⟨q3, q4⟩ := p3 q1
      refine ⟨?_, by rw [h9, if_neg q2]; exact q4⟩
      rcases hcase with ⟨e1, -⟩ | ⟨e1, -⟩
      · rw [e1, ← q3, hns]
        exact lastOr_remove (by rw [← hns, q3]; exact q2)
      · rw [e1]; exact q3
    · unfold Shelf.remove
      simp only [Bool.and_eq_true, decide_eq_true_eq, p4, ne_eq, hlast]
      constructor
      · rintro ⟨q1, q2⟩
        have hpa' : p ≠ a := by rw [← (p3 q1).1]; exact q2
        rcases hcase with ⟨e1, -⟩ | ⟨e1, -⟩
        · rw [e1]; rw [hns] at q1; simp [hpa'] at q1 ⊢; exact q1
        · rw [e1]; exact q1
      · intro hp
        obtain ⟨q1, q2⟩ := hpa hp
        exact ⟨q1, by rw [(p3 q1).1]; exact q2⟩

end

end Verif.Skip
