import Verif.Spec.Retry
import Verif.Props.Isolation
import Verif.Props.Hashes

/-! # C60 – a request can be sent again -/

namespace Verif.Props

open Spec

/-- The commands of `Repeatable`. -/
def Settles : Command → Prop
  | .set .. | .mset .. | .lset .. | .hset .. | .hdel .. | .sadd .. | .srem .. => True
  | .lrem _ n _ => n = 0
  | _ => False

theorem settles_determined {c : Command} (h : Settles c) : Determined c := by
  cases c <;> simp_all [Settles, Determined]

/-- The reply to the repetition of a command. -/
def Again : Except CmdErr Resp → Except CmdErr Resp → Prop
  | .ok (.int _), r' => r' = .ok (.int 0)
  | r, r' => r' = r

theorem setStr_same {a : DB} {k v : Bytes} (h : a.strs k = some v) : a.setStr k v = a := by
  obtain ⟨s, l, h', t⟩ := a
  simp only [DB.setStr] at *
  congr 1
  rw [← h]; exact Function.update_eq_self _ _

theorem foldl_setStr_last {a : DB} {k : Bytes} (ps : List (Bytes × Bytes)) :
    (ps.foldl (fun a p => a.setStr p.1 p.2) a).strs k = ((ps.reverse.lookup k).or (a.strs k)) := by
  induction ps using List.reverseRecOn with
  | nil => simp
  | append_singleton ps p ih =>
    obtain ⟨x, v⟩ := p
    rw [List.foldl_append, List.reverse_append]
    simp only [List.foldl_cons, List.foldl_nil, List.reverse_cons, List.reverse_nil, List.nil_append, List.singleton_append, List.lookup_cons]
    by_cases e : k = x
    · subst e; simp [DB.setStr]
    · have : (k == x) = false := by simpa using e
      have h : ∀ b : DB, (b.setStr x v).strs k = b.strs k := fun b => Function.update_of_ne e _ _
      rw [h, ih, this]

theorem mset_twice {a : DB} (ps : List (Bytes × Bytes)) :
    ps.foldl (fun a p => a.setStr p.1 p.2) (ps.foldl (fun a p => a.setStr p.1 p.2) a) = ps.foldl (fun a p => a.setStr p.1 p.2) a := by
  have hr := fun b : DB => foldl_setStr_rest b ps
  have hs : ∀ k, (ps.foldl (fun a p => a.setStr p.1 p.2) (ps.foldl (fun a p => a.setStr p.1 p.2) a)).strs k =
      (ps.foldl (fun a p => a.setStr p.1 p.2) a).strs k := by
    intro k
    rw [foldl_setStr_last, foldl_setStr_last]
    cases ps.reverse.lookup k <;> simp
  generalize ps.foldl (fun a p => a.setStr p.1 p.2) a = b at *
  have h1 := hr b
  generalize ps.foldl (fun a p => a.setStr p.1 p.2) b = c at *
  obtain ⟨x1, x2, x3, x4⟩ := b; obtain ⟨y1, y2, y3, y4⟩ := c
  simp only at *
  obtain ⟨rfl, rfl, rfl⟩ := h1
  congr 1
  exact funext hs

theorem setList_same {a : DB} {k : Bytes} {v} (h : a.lists k = some v) : a.setList k v = a := by
  obtain ⟨s, l, h', t⟩ := a
  simp only [DB.setList] at *
  congr 1
  rw [← h]; exact Function.update_eq_self _ _

theorem setHash_same {a : DB} {k : Bytes} {v} (h : a.hashes k = some v) : a.setHash k v = a := by
  obtain ⟨s, l, h', t⟩ := a
  simp only [DB.setHash] at *
  congr 1
  rw [← h]; exact Function.update_eq_self _ _

theorem setSet_same {a : DB} {k : Bytes} {v} (h : a.sets k = some v) : a.setSet k v = a := by
  obtain ⟨s, l, h', t⟩ := a
  simp only [DB.setSet] at *
  congr 1
  rw [← h]; exact Function.update_eq_self _ _

theorem foldl_insert_last {m : Hash} {f : Bytes} (ps : List (Bytes × Bytes)) :
    (ps.foldl (fun m p => m.insert p.1 p.2) m).lookup f = ((ps.reverse.lookup f).or (m.lookup f)) := by
  induction ps using List.reverseRecOn with
  | nil => simp
  | append_singleton ps p ih =>
    obtain ⟨x, v⟩ := p
    rw [List.foldl_append, List.reverse_append]
    simp only [List.foldl_cons, List.foldl_nil, List.reverse_cons, List.reverse_nil, List.nil_append, List.singleton_append, List.lookup_cons]
    by_cases e : f = x
    · subst e; simp
    · have : (f == x) = false := by simpa using e
      rw [Finmap.lookup_insert_of_ne _ e, ih, this]

theorem hset_twice {m : Hash} (ps : List (Bytes × Bytes)) :
    ps.foldl (fun m p => m.insert p.1 p.2) (ps.foldl (fun m p => m.insert p.1 p.2) m) = ps.foldl (fun m p => m.insert p.1 p.2) m := by
  refine Finmap.ext_lookup fun f => ?_
  rw [foldl_insert_last, foldl_insert_last]
  cases ps.reverse.lookup f <;> simp

theorem hset_keys {m : Hash} (ps : List (Bytes × Bytes)) {f : Bytes} (h : f ∈ ps.map Prod.fst) :
    f ∈ (ps.foldl (fun m p => m.insert p.1 p.2) m).keys := by
  rw [lookup_some_keys, foldl_insert_last]
  cases e : ps.reverse.lookup f with
  | some v => exact ⟨v, rfl⟩
  | none =>
    exfalso
    rw [List.lookup_eq_none_iff] at e
    obtain ⟨p, hp, rfl⟩ := List.mem_map.1 h
    simpa using e p (List.mem_reverse.2 hp)

theorem hdel_twice {m : Hash} (fs : List Bytes) : fs.foldl (fun m f => m.erase f) (fs.foldl (fun m f => m.erase f) m) = fs.foldl (fun m f => m.erase f) m := by
  refine Finmap.ext_lookup fun f => ?_
  rw [foldl_erase_lookup, foldl_erase_lookup]
  split <;> rfl

/-- A command that is carried out a second time leaves everything as it is. -/
theorem step_again {a a1 : DB} {c : Command} {r1 : Except CmdErr Resp} (hv : Valid c) (hc : Settles c) (h : Step a c (some (a1, r1))) :
    ∃ r2, Step a1 c (some (a1, r2)) ∧ Again r1 r2 := by
  cases c <;> simp only [Settles] at hc <;> simp only [Step] at h
  case set k v =>
    cases h
    refine ⟨_, ?_, rfl⟩
    simp only [Step]
    rw [setStr_same (a := a.setStr k v) (by simp [DB.setStr])]; rfl
  case mset ks vs =>
    split at h
    · rename_i hk
      obtain ⟨msg, h⟩ := h
      cases h
      exact ⟨_, by simp only [Step]; rw [if_pos hk]; exact ⟨msg, rfl⟩, rfl⟩
    · rename_i hk
      cases h
      refine ⟨.ok okReply, ?_, rfl⟩
      simp only [Step]
      rw [if_neg hk, mset_twice]; rfl
  case lset k i v =>
    cases hl : a.lists k with
    | none =>
      rw [hl] at h
      cases h
      exact ⟨_, by simp only [Step, hl]; rfl, rfl⟩
    | some xs =>
      rw [hl] at h
      rcases h with ⟨p, hp, h⟩ | ⟨hp, h⟩
      · cases h
        refine ⟨.ok okReply, ?_, rfl⟩
        have e : (a.setList k (xs.set p v)).lists k = some (xs.set p v) := by simp [DB.setList]
        simp only [Step]
        rw [e]
        refine .inl ⟨p, by simpa using hp, ?_⟩
        rw [List.set_set, setList_same e]; rfl
      · cases h
        exact ⟨_, by simp only [Step, hl]; exact .inr ⟨hp, rfl⟩, rfl⟩
  case hset k fs vs =>
    split at h
    · cases h
    · rename_i hk
      split at h
      · rename_i hf
        cases h
        refine ⟨_, ?_, rfl⟩
        simp only [Step]
        rw [if_neg hk, if_pos hf]
        have e : (a.setHash k (a.hashAt k)).hashAt k = a.hashAt k := by simp [DB.setHash, DB.hashAt]
        rw [e, setHash_same (a := a.setHash k _) (by simp [DB.setHash])]; rfl
      · rename_i hf
        cases h
        refine ⟨.ok (.int 0), ?_, rfl⟩
        simp only [Step]
        rw [if_neg hk, if_neg hf]
        have e : ∀ m, (a.setHash k m).hashAt k = m := fun m => by simp [DB.setHash, DB.hashAt]
        rw [e, hset_twice, setHash_same (a := a.setHash k _) (by simp [DB.setHash])]
        have : fs.toFinset \ ((fs.zip vs).foldl (fun m p => m.insert p.1 p.2) (a.hashAt k)).keys = ∅ := by
          rw [Finset.sdiff_eq_empty_iff_subset]
          intro f hf
          refine hset_keys _ ?_
          rw [List.map_fst_zip (Nat.le_of_eq hv)]
          simpa using hf
        rw [this]; rfl
  case hdel k fs =>
    cases hm : a.hashes k with
    | none =>
      rw [hm] at h
      cases h
      exact ⟨_, by simp only [Step, hm]; rfl, rfl⟩
    | some m =>
      rw [hm] at h
      cases h
      refine ⟨.ok (.int 0), ?_, rfl⟩
      have e : ∀ m, (a.setHash k m).hashes k = some m := fun m => by simp [DB.setHash]
      simp only [Step]
      rw [e]
      show _ = _
      rw [hdel_twice, setHash_same (e _)]
      have : fs.toFinset ∩ (fs.foldl (fun m f => m.erase f) m).keys = ∅ := by
        refine Finset.eq_empty_of_forall_notMem fun f hf => ?_
        rw [Finset.mem_inter, lookup_some_keys, foldl_erase_lookup] at hf
        obtain ⟨h1, v, h2⟩ := hf
        rw [if_pos (by simpa using h1)] at h2
        cases h2
      rw [this]; rfl
  case sadd k ms =>
    split at h
    · cases h
    · rename_i hk
      cases h
      refine ⟨.ok (.int 0), ?_, rfl⟩
      have e : ∀ m, (a.setSet k m).setAt k = m := fun m => by simp [DB.setSet, DB.setAt]
      simp only [Step]
      rw [if_neg hk, e]
      have h1 : a.setAt k ∪ ms.toFinset ∪ ms.toFinset = a.setAt k ∪ ms.toFinset := by ext; simp
      have h2 : ms.toFinset \ (a.setAt k ∪ ms.toFinset) = ∅ := by ext; simp <;> tauto
      rw [h1, h2, setSet_same (a := a.setSet k _) (by simp [DB.setSet])]; rfl
  case srem k ms =>
    split at h
    · cases h
    · rename_i hk
      cases h
      refine ⟨.ok (.int 0), ?_, rfl⟩
      have e : ∀ m, (a.setSet k m).setAt k = m := fun m => by simp [DB.setSet, DB.setAt]
      simp only [Step]
      rw [if_neg hk, e]
      have h1 : (a.setAt k \ ms.toFinset) \ ms.toFinset = a.setAt k \ ms.toFinset := by ext; simp
      have h2 : ms.toFinset ∩ (a.setAt k \ ms.toFinset) = ∅ := by ext; simp <;> tauto
      rw [h1, h2, setSet_same (a := a.setSet k _) (by simp [DB.setSet])]; rfl
  case lrem k n v =>
    subst hc
    cases hl : a.lists k with
    | none =>
      rw [hl] at h
      cases h
      exact ⟨_, by simp only [Step, hl]; rfl, rfl⟩
    | some xs =>
      rw [hl] at h
      have hr : ∀ ys : List Bytes, Spec.lrem 0 v ys = removeAll v ys := fun ys => by simp [Spec.lrem]
      change if _ then _ else _ at h
      split at h
      · cases h
      · rename_i hk
        cases h
        refine ⟨.ok (.int 0), ?_, rfl⟩
        have e : ∀ m, (a.setList k m).lists k = some m := fun m => by simp [DB.setList]
        simp only [Step]
        rw [e]
        show if _ then _ else _
        rw [if_neg]
        · simp only [hr]
          have : removeAll v (removeAll v xs) = removeAll v xs := by simp [removeAll]
          rw [this, setList_same (e _)]
          simp [done]
        · rintro ⟨h1, h2, h3⟩
          refine hk ⟨h1, fun h4 => ?_, h3⟩
          exact h2 ⟨trivial, by rw [hr, h4.2]; rfl⟩

theorem repeatable_settles {objs : List Resp} {c : Command} (hm : Means objs c) (h : Repeatable objs) : Settles c := by
  rcases h with ⟨n, hn, os, hc⟩ | ⟨k, l, v, hr, hi⟩
  · have no : ∀ n' args, n' ∉ assertive → ¬ Request objs n' args := fun n' args hn' ⟨os', hc', _⟩ => hn' ((calls_fun hc hc').1 ▸ hn)
    have no' : ∀ n' os', n' ∉ assertive → ¬ Calls objs n' os' := fun n' os' hn' hc' => hn' ((calls_fun hc hc').1 ▸ hn)
    cases c <;> simp only [Settles]
    case incr => rcases hm with h | ⟨-, h | ⟨o, os', h, -⟩⟩ <;> first | exact no _ _ (by decide) h | exact no' _ _ (by decide) h
    case decr => rcases hm with h | ⟨-, h | ⟨o, os', h, -⟩⟩ <;> first | exact no _ _ (by decide) h | exact no' _ _ (by decide) h
    case srandmember k n => cases n <;> first | exact no _ _ (by decide) hm | (obtain ⟨_, h, _⟩ := hm; exact no _ _ (by decide) h)
    case spop k n => cases n <;> first | exact no _ _ (by decide) hm | (obtain ⟨_, h, _⟩ := hm; exact no _ _ (by decide) h)
    case lrem => obtain ⟨_, h, _⟩ := hm; exact absurd h (no _ _ (by decide))
    all_goals first
      | exact no _ _ (by decide) hm
      | exact no _ _ (by decide) hm.2
      | (obtain ⟨_, h, _⟩ := hm; exact no _ _ (by decide) h)
      | (obtain ⟨_, _, h, _⟩ := hm; exact no _ _ (by decide) h)
  · have := means_unique hm (d := .lrem k 0 v) ⟨l, hr, hi⟩
    subst this; rfl

theorem serve_agree {P : Space → Bytes → Prop} {st st' : State} {a : DB} {qs : List (Env × List Resp)} {rs : List Resp} (h : Abs st a)
    (hf : ∀ q ∈ qs, q.1.ord.Fair) (hw : ∀ q ∈ qs, ∀ sp k, Writes sp q.2 k → ¬ P sp k) (hs : serve st qs = .ok (st', rs)) :
    ∃ a', Abs st' a' ∧ AgreeOn P a' a := by
  induction qs generalizing st a rs with
  | nil => cases hs; exact ⟨a, h, .refl⟩
  | cons q qs ih =>
    obtain ⟨env, objs⟩ := q
    simp only [serve] at hs
    split at hs <;> try cases hs
    rename_i st1 r he
    split at hs <;> try cases hs
    rename_i rs' hs'
    obtain ⟨a1, ha, hag⟩ := handle_agree h (hf _ List.mem_cons_self) (hw _ List.mem_cons_self) he
    obtain ⟨a', g1, g2⟩ := ih ha (fun p hp => hf p (List.mem_cons_of_mem _ hp)) (fun p hp => hw p (List.mem_cons_of_mem _ hp)) hs'
    exact ⟨a', g1, g2.trans hag⟩

/-- What the client is told. -/
def Shows : Except CmdErr Resp → Resp → Prop
  | .ok x, r => r = x
  | .error e, r => ErrorReply e r

theorem again_reply {e e' : Except CmdErr Resp} (h : Again e e') {r r' : Resp} (hr : Shows e r) (hr' : Shows e' r') :
    AnsweredAgain r r' := by
  cases e with
  | error x =>
    cases h
    refine .inr ⟨?_, sameReply_err (.inl rfl) hr hr'⟩
    intro n hn
    subst hn
    cases x <;> simp [Shows, ErrorReply, InternalError] at hr
  | ok x =>
    cases hr
    cases r <;> simp only [Again] at h <;> subst h <;> first
      | (cases hr'; exact .inl ⟨_, rfl, rfl⟩)
      | (cases hr'; exact .inr ⟨by simp, .inl rfl⟩)

/-- C60: a request that says what is to be the case can be sent a second time, also when other requests were answered in between, as long as
those do not write to the keys it mentions: the repetition changes nothing at all, is answered, and the answer is the same as the first time or,
where the answer is a count of changes, zero. -/
theorem C60_again {env env' : Env} {st st1 st2 : State} {a b : DB} {objs : List Resp} {r1 : Resp} {qs : List (Env × List Resp)} {rs : List Resp}
    (h : Abs st a) (ho : env.ord.Fair) (ho' : env'.ord.Fair) (hf : ∀ q ∈ qs, q.1.ord.Fair) (hr : Repeatable objs)
    (h1 : handle env st objs = .ok (st1, r1)) (h2 : serve st1 qs = .ok (st2, rs)) (hw : ∀ q ∈ qs, ∀ sp k, Writes sp q.2 k → ¬ Names sp objs k)
    (hb : Abs st2 b) : ∃ r2, Answers env' st2 objs b r2 ∧ AnsweredAgain r1 r2 := by
  by_cases hm : ∃ c, Means objs c
  · obtain ⟨c, hm⟩ := hm
    have hc := repeatable_settles hm hr
    have hv := requestCommand_valid (means_command hm)
    obtain ⟨out, hs, hob⟩ := handle_refines h ho hm
    have ⟨a1, e1, hs1, ha1, hr1⟩ : ∃ a1 e1, Step a c (some (a1, e1)) ∧ Abs st1 a1 ∧ Shows e1 r1 := by
      rcases out with _ | ⟨a1, e | x⟩
      · simp only [Observes, Crashes, h1] at hob
        cases hob
      · obtain ⟨r, hr', s, hh, ha⟩ := hob
        rw [h1] at hh; cases hh
        exact ⟨a1, .error e, hs, ha, hr'⟩
      · obtain ⟨s, hh, ha⟩ := hob
        rw [h1] at hh; cases hh
        exact ⟨a1, .ok r1, hs, ha, rfl⟩
    obtain ⟨e2, hs2, hag⟩ := step_again hv hc hs1
    obtain ⟨b', hb', hab⟩ := serve_agree ha1 hf hw h2
    cases abs_unique hb hb'
    have hs3 := step_agree hm (fun _ _ hk => hk) hab.symm hs2
    have hp : patchOut (fun sp k => Names sp objs k) b (some (a1, e2)) = some (b, e2) := by simp [patchOut, patch_eq hab.symm]
    rw [hp] at hs3
    obtain ⟨out, hs4, hob⟩ := handle_refines hb ho' hm
    have := step_det (settles_determined hc) hs3 hs4
    rcases out with _ | ⟨b1, e | x⟩
    · cases e2 <;> simp [SameOut] at this
    · cases e2 with
      | ok y => simp [SameOut] at this
      | error y =>
        obtain ⟨rfl, hy⟩ := this
        obtain ⟨r2, hr2, hans⟩ := hob
        obtain ⟨r, hr'⟩ : ∃ r, ErrorReply y r := by
          cases y <;> first | exact ⟨_, rfl⟩ | exact ⟨_, [], rfl⟩
        refine ⟨r2, hans, ?_⟩
        rcases again_reply hag hr1 (r' := r) hr' with ⟨n, -, rfl⟩ | ⟨h3, h4⟩
        · cases y <;> simp [ErrorReply, InternalError] at hr'
        · exact .inr ⟨h3, h4.trans (sameReply_err hy hr' hr2)⟩
    · cases e2 with
      | error y => simp [SameOut] at this
      | ok y =>
        obtain ⟨rfl, rfl⟩ := this
        exact ⟨y, hob, again_reply hag hr1 rfl⟩
  · obtain ⟨e, he, hh⟩ := handle_bad (env := env) (st := st) hm
    obtain ⟨e', he', hh'⟩ := handle_bad (env := env') (st := st2) hm
    rw [he] at he'; cases he'
    rw [h1] at hh; cases hh
    exact ⟨_, ⟨st2, hh', hb⟩, .inr ⟨by simp, .inl rfl⟩⟩

/-- Repeating the request `n ws` in state `st` changes the contents again. -/
def ChangesAgain (n : Bytes) (st : State) : Prop :=
  ∃ ws st1 st2 r1 r2 a1, handle env0 st (req (n :: ws)) = .ok (st1, r1) ∧ handle env0 st1 (req (n :: ws)) = .ok (st2, r2) ∧ Abs st1 a1 ∧ ¬ Abs st2 a1

theorem changes_again (n : Bytes) (setup ws probe : List Bytes) (p : Bytes) {st st1 st2 t1 t2 : State} {r0 : List Resp} {r1 r2 : Resp} {i j : Int}
    (h0 : serve State.empty [(env0, req setup)] = .ok (st, r0)) (h1 : handle env0 st (req (n :: ws)) = .ok (st1, r1))
    (h2 : handle env0 st1 (req (n :: ws)) = .ok (st2, r2)) (h3 : handle env0 st1 (req (p :: probe)) = .ok (t1, .int i))
    (h4 : handle env0 st2 (req (p :: probe)) = .ok (t2, .int j)) (hp : toLower p ∉ unordered := by decide) (hij : i ≠ j := by decide) :
    ∃ st, Reachable st ∧ ChangesAgain n st := by
  have hr : Reachable st := ⟨_, _, by simpa using env0_fair, h0⟩
  have hr1 := reachable_step hr env0_fair h1
  obtain ⟨a1, ha1⟩ := reachable_abs hr1
  exact ⟨st, hr, ws, st1, st2, r1, r2, a1, h1, h2, ha1, fun h => not_same_int hij (differ ha1 h probe p hp h3 h4)⟩

/-- C60 says which requests can be repeated, and there are no others: for every other writing command there is a reachable database in which
sending a request twice has another effect than sending it once. (For LREM this is a request with a count.) -/
theorem C60_others : ∀ sp, ∀ n ∈ writers sp, n ∉ assertive → ∃ st, Reachable st ∧ ChangesAgain n st := by
  have h1 := changes_again b!"append" [b!"set", b!"n", b!"5"] [b!"n", b!"1"] [b!"n"] b!"strlen" rfl rfl rfl rfl rfl
  have h2 := changes_again b!"incr" [b!"set", b!"n", b!"5"] [b!"n"] [b!"n", b!"0"] b!"incrby" rfl rfl rfl rfl rfl
  have h3 := changes_again b!"incrby" [b!"set", b!"n", b!"5"] [b!"n", b!"2"] [b!"n", b!"0"] b!"incrby" rfl rfl rfl rfl rfl
  have h4 := changes_again b!"decr" [b!"set", b!"n", b!"5"] [b!"n"] [b!"n", b!"0"] b!"incrby" rfl rfl rfl rfl rfl
  have h5 := changes_again b!"decrby" [b!"set", b!"n", b!"5"] [b!"n", b!"2"] [b!"n", b!"0"] b!"incrby" rfl rfl rfl rfl rfl
  have h6 := changes_again b!"lpush" [b!"rpush", b!"l", b!"a"] [b!"l", b!"x"] [b!"l"] b!"llen" rfl rfl rfl rfl rfl
  have h7 := changes_again b!"rpush" [b!"rpush", b!"l", b!"a"] [b!"l", b!"x"] [b!"l"] b!"llen" rfl rfl rfl rfl rfl
  have h8 := changes_again b!"lpop" [b!"rpush", b!"l", b!"a", b!"a"] [b!"l"] [b!"l"] b!"llen" rfl rfl rfl rfl rfl
  have h9 := changes_again b!"rpop" [b!"rpush", b!"l", b!"a", b!"a"] [b!"l"] [b!"l"] b!"llen" rfl rfl rfl rfl rfl
  have h10 := changes_again b!"linsert" [b!"rpush", b!"l", b!"a"] [b!"l", b!"after", b!"a", b!"x"] [b!"l"] b!"llen" rfl rfl rfl rfl rfl
  have h11 := changes_again b!"lrem" [b!"rpush", b!"l", b!"a", b!"a"] [b!"l", b!"1", b!"a"] [b!"l"] b!"llen" rfl rfl rfl rfl rfl
  have h12 := changes_again b!"ltrim" [b!"rpush", b!"l", b!"a", b!"a", b!"a"] [b!"l", b!"1", b!"-1"] [b!"l"] b!"llen" rfl rfl rfl rfl rfl
  have h13 := changes_again b!"spop" [b!"sadd", b!"s", b!"a", b!"b"] [b!"s"] [b!"s"] b!"scard" rfl rfl rfl rfl rfl
  intro sp n hn hna
  cases sp <;> simp only [writers, List.mem_cons, List.not_mem_nil, or_false] at hn
  · rcases hn with rfl | rfl | rfl | rfl | rfl | rfl <;> first | exact absurd (by decide) hna | assumption
  · rcases hn with rfl | rfl | rfl | rfl | rfl | rfl | rfl | rfl <;> first | exact absurd (by decide) hna | assumption
  · rcases hn with rfl | rfl <;> exact absurd (by decide) hna
  · rcases hn with rfl | rfl | rfl <;> first | exact absurd (by decide) hna | assumption

/-- A client adds to a set, another one counts, the first one repeats its request: the hypotheses of `C60_again` are met, and the count of added
members is 2 the first time. -/
example : ∃ st1 st2, handle env0 State.empty (req [b!"SADD", b!"s", b!"x", b!"y"]) = .ok (st1, .int 2) ∧
    serve st1 [(env0, req [b!"SET", b!"s", b!"1"])] = .ok (st2, [.simple b!"OK"]) ∧ Repeatable (req [b!"SADD", b!"s", b!"x", b!"y"]) ∧
    ∀ sp k, Writes sp (req [b!"SET", b!"s", b!"1"]) k → ¬ Names sp (req [b!"SADD", b!"s", b!"x", b!"y"]) k := by
  refine ⟨_, _, rfl, rfl, .inl ⟨b!"sadd", by decide, _, (request_req [b!"s", b!"x", b!"y"]).choose_spec.1⟩, fun sp k hw hn => ?_⟩
  have h1 := names_req (by decide) (writes_names hw)
  have h2 := names_req (by decide) hn
  revert h1 h2
  cases sp <;> simp +decide [keysOf, toLower]

/-- And LREM of all occurrences. -/
example : Repeatable (req [b!"LREM", b!"l", b!"0", b!"x"]) :=
  .inr ⟨b!"l", b!"0", b!"x", request_req _, isInt_iff.2 (by decide)⟩

end Verif.Props
