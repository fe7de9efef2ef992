import Verif.Lemmas.Request

/-!
The answers the abstract machine allows are all possible: for the commands that depend on the iteration order of a Go map there is, for
every allowed answer, an order of iteration leading to it.
-/

namespace Verif

open Spec

/-- The order `ts` whenever it is an order of the keys visited. -/
def forced (ts : List Bytes) : IterOrder := fun _ l => if ts.Perm l then ts else l

theorem forced_fair (ts : List Bytes) : (forced ts).Fair := by
  intro i l
  unfold forced
  split
  · assumption
  · exact .refl _

theorem forced_eq {ts l : List Bytes} (h : ts.Perm l) (i : Nat) : forced ts i l = ts := if_pos h

/-- The environment with that order. -/
def Env.forced (env : Env) (ts : List Bytes) : Env := { env with ord := Verif.forced ts }

theorem enumerates_perm {c : SetC} {s : Finset Bytes} (r : SetRep c s) {ts : List Bytes} (h : Enumerates ts (· ∈ s)) :
    ts.Perm (GoMap.keys c) :=
  (List.perm_ext_iff_of_nodup h.1 r.1).2 fun x => by rw [h.2, ← List.mem_toFinset, SetC.keys_rep r]

theorem members_forced {c : SetC} {s : Finset Bytes} (r : SetRep c s) {ts : List Bytes} (h : Enumerates ts (· ∈ s)) (i : Nat) :
    SetC.members (forced ts) i c = ts.map Str.new := by
  unfold SetC.members
  rw [forced_eq (enumerates_perm r h)]
  have : ∀ l : List Bytes, (∀ x ∈ l, x ∈ s) → (GoMap.inOrder c l).map Prod.snd = l.map Str.new := by
    intro l hl
    induction l with
    | nil => rfl
    | cons x l ih =>
      have hx := r.2 x
      rw [if_pos (hl x (by simp))] at hx
      simp only [GoMap.inOrder, List.filterMap_cons, hx, Option.map_some, List.map_cons] at ih ⊢
      rw [ih (fun y hy => hl y (by simp [hy]))]
  exact this ts fun x hx => (h.2 x).1 hx

/-- A choice of members, followed by the others. -/
theorem enumerates_extend {s : Finset Bytes} {ms : List Bytes} (hn : ms.Nodup) (hs : ms.toFinset ⊆ s) :
    Enumerates (ms ++ (s \ ms.toFinset).toList) (· ∈ s) := by
  refine ⟨List.Nodup.append hn (Finset.nodup_toList _) ?_, fun x => ?_⟩
  · intro x h1 h2
    rw [Finset.mem_toList, Finset.mem_sdiff, List.mem_toFinset] at h2
    exact h2.2 h1
  · rw [List.mem_append, Finset.mem_toList, Finset.mem_sdiff, List.mem_toFinset]
    constructor
    · rintro (h | h)
      · exact hs (List.mem_toFinset.2 h)
      · exact h.1
    · intro h
      by_cases hx : x ∈ ms
      · exact .inl hx
      · exact .inr ⟨h, hx⟩

theorem randomMember_forced {c : SetC} {s : Finset Bytes} (r : SetRep c s) {ms : List Bytes} {n : Int} (hi : InInt64 n) (hn : ms.Nodup)
    (hs : ms.toFinset ⊆ s) (hl : ms.length = min n.natAbs s.card) (i : Nat) :
    SetC.randomMember (forced (ms ++ (s \ ms.toFinset).toList)) i c n = ms.map Str.new := by
  have en := enumerates_extend hn hs
  unfold SetC.randomMember
  rw [members_forced r en]
  show SetC.randomLoop (if n < 0 then wrap64 (-n) else n) _ = _
  rw [SetC.randomLoop_abs hi, ← List.map_take]
  congr 1
  by_cases h : n.natAbs ≤ s.card
  · rw [show n.natAbs = ms.length by omega, List.take_left]
  · have hc : ms.toFinset.card = ms.length := List.toFinset_card_of_nodup hn
    have : s \ ms.toFinset = ∅ := by
      rw [Finset.sdiff_eq_empty_iff_subset]
      rw [Finset.eq_of_subset_of_card_le hs (by omega)]
    rw [this, Finset.toList_empty, List.append_nil, List.take_of_length_le (by omega)]

theorem entries_forced {h : HashC} {m : Hash} (r : HashRep h m) {ps : List (Bytes × Bytes)} (hp : HashEntries ps m) (i : Nat) :
    GoMap.inOrder h (forced (ps.map Prod.fst) i (GoMap.keys h)) = ps.map fun p => (p.1, ⟨Str.new p.1, Str.new p.2⟩) := by
  have hperm : (ps.map Prod.fst).Perm (GoMap.keys h) := by
    refine (List.perm_ext_iff_of_nodup hp.1 r.1).2 fun x => ?_
    rw [← List.mem_toFinset (l := GoMap.keys h), HashC.keys_rep r, Finmap.mem_keys, Finmap.mem_iff]
    constructor
    · intro hx
      obtain ⟨p, h1, rfl⟩ := List.mem_map.1 hx
      exact ⟨p.2, (hp.2 _ _).1 h1⟩
    · rintro ⟨v, hv⟩
      exact List.mem_map.2 ⟨(x, v), (hp.2 _ _).2 hv, rfl⟩
  rw [forced_eq hperm]
  have : ∀ l : List (Bytes × Bytes), (∀ p ∈ l, p ∈ ps) →
      GoMap.inOrder h (l.map Prod.fst) = l.map fun p => (p.1, ⟨Str.new p.1, Str.new p.2⟩) := by
    intro l hl
    induction l with
    | nil => rfl
    | cons p l ih =>
      have hx := r.2 p.1
      rw [(hp.2 p.1 p.2).1 (hl p (by simp))] at hx
      simp only [GoMap.inOrder, List.map_cons, List.filterMap_cons, hx, Option.map_some] at ih ⊢
      rw [ih (fun y hy => hl y (by simp [hy]))]
  exact this ps fun p h => h

theorem exec_algebra_forced {op : IterOrder → SetC → List SetC → SetC} {env : Env} {st : State} {a : DB}
    {P : Bytes → List Bytes → Bytes → Prop} (h : Abs st a) {ks ms : List Bytes} (hne : ks ≠ [])
    (hop : ∀ {k : Bytes} {ks : List Bytes} {c : SetC} {cs : List SetC}, SetRep c (a.setAt k) → List.Forall₂ SetRep cs (ks.map a.setAt) →
      ∃ t, SetRep (op (forced ms) c cs) t ∧ ∀ x, x ∈ t ↔ P k ks x)
    (en : Enumerates ms (P (ks.headD []) ks.tail)) :
    Exec.algebra op (env.forced ms) st ks = .ok (st, .ok (bulksOrNull ms)) := by
  cases ks with
  | nil => exact absurd rfl hne
  | cons k ks =>
    have hr := operands_rep h (k :: ks)
    unfold Exec.algebra
    generalize Exec.operands st (k :: ks) = l at hr
    simp only [List.map_cons] at hr
    cases hr with
    | @cons b _ cs _ h1 h2 =>
      obtain ⟨t, rt, ht⟩ := hop h1 h2
      have en' : Enumerates ms (· ∈ t) := ⟨en.1, fun x => by rw [en.2 x]; exact (ht x).symm⟩
      have hl : SetC.len (op (env.forced ms).ord b cs) = (ms.length : Int) := by
        rw [SetC.enumerates_length en']; exact SetC.len_rep rt
      have hm := members_forced rt en' 0
      unfold bulksOrNull
      simp only
      by_cases hn : ms = []
      · rw [if_pos (by rw [hl, hn]; rfl), if_pos hn]
      · rw [if_neg (by rw [hl]; simpa using hn), if_neg hn, ← bulks_map, ← hm]
        rfl

/-- The commands whose answer depends on an order of iteration. -/
def Choosing : Command → Prop
  | .hkeys _ | .hvals _ | .hgetall _ | .smembers _ | .srandmember .. | .spop .. | .sdiff _ | .sinter _ | .sunion _ => True
  | _ => False

theorem exec_choice {env : Env} {st : State} {a : DB} {c : Command} {out : Out} (h : Abs st a) (hv : Valid c) (hc : Choosing c)
    (hs : Step a c out) : ∃ ts, Sim out (execute (env.forced ts) st c) := by
  cases c <;> simp only [Choosing] at hc
  case hkeys k =>
    show ∃ ts, Sim out (Exec.hkeys (env.forced ts) st k)
    unfold Exec.hkeys
    rcases h.hash_cases k with ⟨e1, e2, e3⟩ | ⟨c, m, e1, e2, e3, r⟩ <;> simp only [Step, e2] at hs <;> rw [e1]
    · subst hs; exact ⟨[], rfl, h⟩
    · obtain ⟨ps, hp, rfl⟩ := hs
      refine ⟨ps.map Prod.fst, ?_, h⟩
      simp [HashC.keysIn, Env.forced, entries_forced r hp, bulks, Function.comp_def]
  case hvals k =>
    show ∃ ts, Sim out (Exec.hvals (env.forced ts) st k)
    unfold Exec.hvals
    rcases h.hash_cases k with ⟨e1, e2, e3⟩ | ⟨c, m, e1, e2, e3, r⟩ <;> simp only [Step, e2] at hs <;> rw [e1]
    · subst hs; exact ⟨[], rfl, h⟩
    · obtain ⟨ps, hp, rfl⟩ := hs
      refine ⟨ps.map Prod.fst, ?_, h⟩
      simp [HashC.valuesIn, Env.forced, entries_forced r hp, bulks, Function.comp_def]
  case hgetall k =>
    show ∃ ts, Sim out (Exec.hgetall (env.forced ts) st k)
    unfold Exec.hgetall
    rcases h.hash_cases k with ⟨e1, e2, e3⟩ | ⟨c, m, e1, e2, e3, r⟩ <;> simp only [Step, e2] at hs <;> rw [e1]
    · subst hs; exact ⟨[], rfl, h⟩
    · obtain ⟨ps, hp, rfl⟩ := hs
      refine ⟨ps.map Prod.fst, ?_, h⟩
      simp [Env.forced, entries_forced r hp, Function.comp_def, interleave_map]
  case smembers k =>
    show ∃ ts, Sim out (Exec.smembers (env.forced ts) st k)
    unfold Exec.smembers
    rcases h.set_cases k with ⟨e1, e2, e3⟩ | ⟨c, s, e1, e2, e3, r⟩ <;> simp only [Step, e2] at hs <;> rw [e1]
    · subst hs; exact ⟨[], rfl, h⟩
    · obtain ⟨ms, en, rfl⟩ := hs
      refine ⟨ms, ?_, h⟩
      simp [Env.forced, members_forced r en, bulks_map]
  case srandmember k count =>
    show ∃ ts, Sim out (Exec.srandmember (env.forced ts) st k count)
    unfold Exec.srandmember
    rcases h.set_cases k with ⟨e1, e2, e3⟩ | ⟨c, s, e1, e2, e3, r⟩ <;> simp only [Step, e2] at hs <;> rw [e1]
    · subst hs; exact ⟨[], rfl, h⟩
    · obtain ⟨ms, hn, hsub, hl, ho⟩ := hs
      refine ⟨ms ++ (s \ ms.toFinset).toList, ?_⟩
      simp only [Env.forced, randomMember_forced r (count_in hv) hn hsub hl]
      cases count with
      | some n =>
        subst ho
        simp only [Option.isSome_some, countReply_some, Outcome.bind_ok]
        exact ⟨rfl, h⟩
      | none =>
        cases ms with
        | nil => subst ho; trivial
        | cons m ms => subst ho; exact ⟨rfl, h⟩
  case spop k count =>
    show ∃ ts, Sim out (Exec.spop (env.forced ts) st k count)
    unfold Exec.spop
    rcases h.set_cases k with ⟨e1, e2, e3⟩ | ⟨c, s, e1, e2, e3, r⟩ <;> simp only [Step, e2] at hs <;> rw [e1]
    · subst hs; exact ⟨[], rfl, h⟩
    · obtain ⟨ms, hn, hsub, hl, ho⟩ := hs
      obtain ⟨c', e', r'⟩ := SetC.delete_rep r ms
      refine ⟨ms ++ (s \ ms.toFinset).toList, ?_⟩
      simp only [SetC.pop, Env.forced, randomMember_forced r (count_in hv) hn hsub hl, e']
      cases count with
      | some n =>
        subst ho
        simp only [Option.isSome_some, countReply_some, Outcome.bind_ok]
        exact ⟨rfl, h.putSet r' k⟩
      | none =>
        cases ms with
        | nil => subst ho; trivial
        | cons m ms => subst ho; exact ⟨rfl, h.putSet r' k⟩
  case sdiff ks =>
    obtain ⟨ms, en, rfl⟩ := hs
    refine ⟨ms, ?_⟩
    show Sim _ (Exec.algebra SetC.diff (env.forced ms) st ks)
    rw [exec_algebra_forced (P := fun k ks x => x ∈ a.setAt k ∧ ∀ k' ∈ ks, x ∉ a.setAt k') h hv ?_ en]
    · exact ⟨rfl, h⟩
    · intro k ks c cs h1 h2
      obtain ⟨t, rt, ht⟩ := SetC.diff_rep (forced_fair ms) h1 h2
      exact ⟨t, rt, fun x => by rw [ht x]; simp⟩
  case sinter ks =>
    obtain ⟨ms, en, rfl⟩ := hs
    refine ⟨ms, ?_⟩
    show Sim _ (Exec.algebra SetC.intersect (env.forced ms) st ks)
    rw [exec_algebra_forced (P := fun k ks x => ∀ k' ∈ k :: ks, x ∈ a.setAt k') h hv ?_ ?_]
    · exact ⟨rfl, h⟩
    · intro k ks c cs h1 h2
      obtain ⟨t, rt, ht⟩ := SetC.intersect_rep (forced_fair ms) h1 h2
      exact ⟨t, rt, fun x => by rw [ht x]; simp⟩
    · cases ks with
      | nil => exact absurd rfl hv
      | cons k ks => exact en
  case sunion ks =>
    obtain ⟨ms, en, rfl⟩ := hs
    refine ⟨ms, ?_⟩
    show Sim _ (Exec.algebra SetC.union (env.forced ms) st ks)
    rw [exec_algebra_forced (P := fun k ks x => ∃ k' ∈ k :: ks, x ∈ a.setAt k') h hv ?_ ?_]
    · exact ⟨rfl, h⟩
    · intro k ks c cs h1 h2
      obtain ⟨t, rt, ht⟩ := SetC.union_rep (forced_fair ms) h1 h2
      exact ⟨t, rt, fun x => by rw [ht x]; simp⟩
    · cases ks with
      | nil => exact absurd rfl hv
      | cons k ks => exact en

/-- Every answer the abstract machine allows is given under some order of iteration. -/
theorem handle_choice {st : State} {a : DB} {objs : List Resp} {c : Command} {out : Out} (env : Env) (h : Abs st a)
    (hm : Means objs c) (hc : Choosing c) (hs : Step a c out) :
    ∃ ts, Observes (env.forced ts) st objs out := by
  replace hm := means_command hm
  obtain ⟨ts, hsim⟩ := exec_choice (env := env) h (requestCommand_valid hm) hc hs
  refine ⟨ts, ?_⟩
  have hh : handle (env.forced ts) st objs = match execute (env.forced ts) st c with
    | .ok (st', .ok r) => .ok (st', r)
    | .ok (st', .error e) => .ok (st', .error (errorText (wrapExec (env.forced ts) objs c e)))
    | .panic => .panic
    | .diverge => .diverge := by unfold handle; rw [hm]; rfl
  unfold Sim at hsim
  cases out with
  | none =>
    cases he : execute (env.forced ts) st c <;> rw [he] at hsim hh <;> simp at hsim
    exact hh
  | some p =>
    obtain ⟨a', v⟩ := p
    cases he : execute (env.forced ts) st c with
    | panic => rw [he] at hsim; simp at hsim
    | diverge => rw [he] at hsim; simp at hsim
    | ok q =>
      obtain ⟨st', v'⟩ := q
      rw [he] at hsim hh
      simp only at hsim
      obtain ⟨rfl, ha⟩ := hsim
      cases v' with
      | ok r => exact ⟨st', hh, ha⟩
      | error e => exact ⟨_, errorReply _ objs c e, st', hh, ha⟩

end Verif
