import Verif.Props.Request
import Verif.Props.Resp
import Verif.Props.Quote
import Verif.Lemmas.Reply

/-! # C55 – replies on the wire

A reply is written as `r.encode`. It is one object for the reader at the other end exactly when it is `Clean` (C01). -/

namespace Verif.Props

open Verif Spec

variable {env : Env} {st st' : State} {a : DB} {objs : List Resp}

theorem shape_clean {name : Bytes} {n : Nat} {r : Resp} (h : Shape name n r) : Clean r := by
  have hb : ∀ xs : List Bytes, Clean (.array (xs.map .bulk)) := fun xs => .array fun o ho => by
    obtain ⟨d, -, rfl⟩ := List.mem_map.1 ho; exact .bulk
  have hq : ∀ xs : List (Option Bytes), Clean (.array (xs.map bulk?)) := fun xs => .array fun o ho => by
    obtain ⟨d, -, rfl⟩ := List.mem_map.1 ho
    cases d
    · exact .nullBulk
    · exact .bulk
  rcases h with ⟨-, rfl⟩ | ⟨-, -, rfl⟩ | ⟨-, ⟨-, rfl⟩ | rfl⟩ | ⟨-, -, rfl⟩ | ⟨-, xs, -, rfl⟩ | ⟨-, xs, -, rfl⟩ | ⟨-, ⟨xs, rfl⟩ | rfl⟩ |
    ⟨-, -, ⟨-, rfl⟩ | rfl⟩ | ⟨-, -, ⟨xs, rfl⟩ | rfl⟩
  · exact .simple (lineSafe_of_noLF (by decide))
  · exact .int
  · exact .bulk
  · exact .nullBulk
  · exact .bulk
  · exact hq _
  · exact hq _
  · exact hb _
  · exact .nullArray
  · exact .bulk
  · exact .nullBulk
  · exact hb _
  · exact .nullArray

/-- A name that stands for a command has no line break. -/
theorem folds_noLF {n w : Bytes} (h : Folds n w) (hw : (10 : UInt8) ∉ w) : (10 : UInt8) ∉ n := by
  induction h with
  | nil => simp
  | char c hc _ ih =>
    simp only [List.mem_cons, not_or] at hw ⊢
    refine ⟨?_, ih hw.2⟩
    rintro rfl
    exact hw.1 (by decide)
  | _ => rename_i ih; simp only [List.mem_cons, not_or] at hw ⊢; simp [ih hw.2]

/-- Where a reply comes from: it is clean, or an error text, of a request that is no command or of a failed `Execute`. -/
theorem reply_source {r : Resp} (h : Abs st a) (ho : env.ord.Fair) (hh : handle env st objs = .ok (st', r)) :
    Clean r ∨ (∃ e, requestCommand objs = .error e ∧ r = .error (errorText e)) ∨
      ∃ c e, requestCommand objs = .ok c ∧ execute env st c = .ok (st', .error e) ∧ r = .error (errorText (wrapExec env objs c e)) := by
  unfold handle at hh
  split at hh
  · rename_i e he; simp at hh; exact .inr (.inl ⟨e, he, hh.2.symm⟩)
  · rename_i c hc
    split at hh
    · rename_i st1 r1 he
      simp at hh; obtain ⟨rfl, rfl⟩ := hh
      have hv := requestCommand_valid hc
      obtain ⟨out, hs, hm⟩ := exec_refines h ho hv
      rw [he] at hm
      cases step_outline hv hs with
      | done hf hsb hsh =>
        simp only [Sim, done, Except.ok.injEq] at hm
        obtain ⟨rfl, -⟩ := hm
        obtain ⟨_, _, _, hsh⟩ := shape_of (command_means hc) hsh
        exact .inl (shape_clean hsh)
      | fails => simp [Sim, fails] at hm
      | bare => simp [Sim, fails] at hm
      | crash => simp [Sim] at hm
    · rename_i st1 e he; simp at hh; obtain ⟨rfl, rfl⟩ := hh; exact .inr (.inr ⟨c, e, hc, he, rfl⟩)
    · simp at hh
    · simp at hh

theorem errorText_clean {e : CmdErr} (h : ∀ m, e = .internal m → (10 : UInt8) ∉ m) : Clean (.error (errorText e)) := by
  cases e with
  | internal m =>
    refine .error (lineSafe_of_noLF ?_)
    simp only [errorText, List.mem_append, not_or]
    exact ⟨by decide, h m rfl⟩
  | _ => exact .error (lineSafe_of_noLF (by decide))

/-- C55 (ordinary replies): every reply other than an internal error is read back by the other end as exactly that object, and whatever
follows on the connection is untouched. -/
theorem C55_framed {r : Resp} (h : Abs st a) (ho : env.ord.Fair) (hh : handle env st objs = .ok (st', r)) (hi : ¬ InternalError r)
    (hs : Sized r) (rest : Bytes) : parse (r.encode ++ rest) = .ok r rest := by
  refine C01_roundtrip r ?_ hs rest
  have key : ∀ e : CmdErr, r = .error (errorText e) → Clean r := by
    intro e he
    rw [he]
    refine errorText_clean fun m hm => ?_
    subst hm
    exact absurd ⟨m, he⟩ hi
  rcases reply_source h ho hh with hc | ⟨e, -, he⟩ | ⟨c, e, -, -, he⟩
  · exact hc
  · exact key _ he
  · exact key _ he

/-- What stands for a string in a message. -/
theorem printed_as (table : Nat → Bool) (v : Bytes) : PrintedAs v (Quote.quote (Quote.isPrint table) v) := by
  refine ⟨C73_literal (isPrint_visible table (by decide) |>.not.2 (by simp [Visible]) |> Bool.eq_false_iff.2) v, ?_, C73_hidden table v, ?_⟩
  rotate_left
  · rintro cs h rfl
    exact C73_shown table h
  have := C73_line (isPrint_ascii table) v
  constructor <;> (intro hc; have := this _ hc; simp at this)

theorem not_notText {o : Resp} {n : Bytes} (h : IsText o n) : ¬ NotText o := fun h' => h' n h

theorem request_named {objs : List Resp} {name : Bytes} {args : List Bytes} (h : Request objs name args) : ∃ n, Named objs n := by
  obtain ⟨os, ⟨o, n, rfl, h1, -⟩, -⟩ := h
  exact ⟨n, o, os, rfl, h1⟩

theorem request_name {objs : List Resp} {name n : Bytes} {args : List Bytes} (h : Request objs name args) (hn : Named objs n) : Folds n name := by
  obtain ⟨os, ⟨o, n', rfl, h1, h2⟩, -⟩ := h
  obtain ⟨o', os', he, h3⟩ := hn
  obtain ⟨rfl, rfl⟩ := List.cons.inj he
  rw [isText_iff] at h1 h3
  rw [h1] at h3
  cases h3
  exact h2

theorem named_head {objs : List Resp} {n : Bytes} (h : Named objs n) : (objs.head?.bind text).getD [] = n := by
  obtain ⟨o, os, rfl, h⟩ := h
  rw [isText_iff] at h
  simp [h]

theorem badStep_command {objs : List Resp} {k v : Bytes} (h : BadStep objs k v) : requestCommand objs = .ok (.incr k v) ∨
    requestCommand objs = .ok (.decr k v) :=
  h.1.imp (fun h => means_command (c := .incr k v) (.inl h)) fun h => means_command (c := .decr k v) (.inl h)

theorem noList_command {objs : List Resp} {vs : List Bytes} (h : NoList objs vs) : requestCommand objs = .ok (.lpush [] vs) ∨
    requestCommand objs = .ok (.rpush [] vs) :=
  h.2.imp (fun h' => means_command (c := .lpush [] vs) ⟨h.1, h'⟩) fun h' => means_command (c := .rpush [] vs) ⟨h.1, h'⟩

theorem incr_badStep {objs : List Resp} {k v : Bytes} (h : requestCommand objs = .ok (.incr k v) ∨ requestCommand objs = .ok (.decr k v))
    (hv : parseInt64 v = none) : BadStep objs k v := by
  have h1 : v ≠ b!"1" := by rintro rfl; exact absurd hv (by decide)
  refine ⟨?_, not_isInt_iff.2 hv⟩
  rcases h with h | h
  · rcases command_means h with h | ⟨h, -⟩
    · exact .inl h
    · exact absurd h h1
  · rcases command_means h with h | ⟨h, -⟩
    · exact .inr h
    · exact absurd h h1

theorem push_noList {objs : List Resp} {vs : List Bytes} (h : requestCommand objs = .ok (.lpush [] vs) ∨ requestCommand objs = .ok (.rpush [] vs)) :
    NoList objs vs := by
  rcases h with h | h
  · exact ⟨(command_means h).1, .inl (command_means h).2⟩
  · exact ⟨(command_means h).1, .inr (command_means h).2⟩

theorem numError_eq (table : Nat → Bool) {v : Bytes} (hv : parseInt64 v = none) : ∃ w why, PrintedAs v w ∧
    ((TooBig v ∧ why = b!"value out of range") ∨ (¬ TooBig v ∧ why = b!"invalid syntax")) ∧
    Quote.numError table v = b!"strconv.ParseInt: parsing " ++ w ++ b!": " ++ why := by
  refine ⟨_, _, printed_as table v, ?_, rfl⟩
  by_cases h : Quote.intRange v = true
  · exact .inl ⟨(intRange_iff hv).1 h, by rw [if_pos h]⟩
  · exact .inr ⟨fun h' => h ((intRange_iff hv).2 h'), by rw [if_neg h]⟩

/-- C55 (what internal errors say): the reply to a request that ends in an internal error is a fixed beginning, and then says what was wrong with the
request, and nothing of what is stored: its text is a function of the request, up to the addresses of a few objects. -/
theorem C55_explained {r : Resp} (h : Abs st a) (ho : env.ord.Fair) (hh : handle env st objs = .ok (st', r)) (hi : InternalError r) :
    ∃ msg, r = .error (b!"ERR vertex server internal error, err=" ++ msg) ∧ Explains objs msg := by
  have inj : ∀ {e : CmdErr}, InternalError (.error (errorText e)) → ∃ m, e = .internal m := by
    rintro e ⟨m, hm⟩
    have hm := Resp.error.inj hm
    cases e with
    | internal m => exact ⟨m, rfl⟩
    | _ =>
      have := congrArg (fun l => l[5]?) hm
      simp [errorText] at this
  unfold handle at hh
  split at hh
  · rename_i e he
    simp only [Outcome.ok.injEq, Prod.mk.injEq] at hh
    obtain ⟨-, rfl⟩ := hh
    obtain ⟨m, rfl⟩ := inj hi
    refine ⟨m, rfl, ?_⟩
    unfold requestCommand at he
    split at he
    · simp only [Except.error.injEq, CmdErr.internal.injEq] at he; subst he; exact .empty
    · rename_i o os
      split at he
      · rename_i hx
        simp only [Except.error.injEq, CmdErr.internal.injEq] at he; subst he
        exact .name fun n hn => by rw [text_of hn] at hx; simp at hx
      · unfold newCommand at he
        split at he
        · simp at he
        · split at he <;> simp at he
  · rename_i c hc
    have hv := requestCommand_valid hc
    split at hh
    · rename_i st1 r1 he
      simp only [Outcome.ok.injEq, Prod.mk.injEq] at hh
      obtain ⟨rfl, rfl⟩ := hh
      obtain ⟨m, rfl⟩ := hi
      obtain ⟨out, hs, hm⟩ := exec_refines h ho hv
      rw [he] at hm
      cases step_outline hv hs with
      | done hf hsb hsh =>
        simp only [Sim, done, Except.ok.injEq] at hm
        obtain ⟨rfl, -⟩ := hm
        obtain ⟨_, _, _, hsh⟩ := shape_of (command_means hc) hsh
        rcases hsh with ⟨-, hx⟩ | ⟨-, _, hx⟩ | ⟨-, ⟨_, hx⟩ | hx⟩ | ⟨-, _, hx⟩ | ⟨-, xs, -, hx⟩ | ⟨-, xs, -, hx⟩ | ⟨-, ⟨xs, hx⟩ | hx⟩ |
          ⟨-, -, ⟨_, hx⟩ | hx⟩ | ⟨-, -, ⟨xs, hx⟩ | hx⟩ <;> cases hx
      | fails => simp [Sim, fails] at hm
      | bare => simp [Sim, fails] at hm
      | crash => simp [Sim] at hm
    · rename_i st1 e he
      simp only [Outcome.ok.injEq, Prod.mk.injEq] at hh
      obtain ⟨rfl, rfl⟩ := hh
      obtain ⟨m, hm⟩ := inj hi
      cases e with
      | internal m' =>
        refine ⟨_, rfl, ?_⟩
        rcases exec_internal h ho hv he with ⟨k, v, hk, hv, rfl⟩ | ⟨vs, hk, rfl⟩ | ⟨vs, rfl, rfl⟩
        · have hb : BadStep objs k v := incr_badStep (by rcases hk with rfl | rfl; exacts [.inl hc, .inr hc]) hv
          obtain ⟨n, hn⟩ : ∃ n, Named objs n := by rcases hb.1 with h | h <;> exact request_named h
          obtain ⟨w, why, hw, hy, ht⟩ := numError_eq env.table hv
          have := Explains.step hb hn hw (pointer_fmt (env.addr 1)) (pointer_fmt (env.addr 2)) (pointer_fmt (env.addr 0)) hy
          rw [ht, named_head hn]
          rcases hk with rfl | rfl <;> simpa [dump] using this
        · have hb : NoList objs vs := push_noList (by rcases hk with rfl | rfl; exacts [.inl hc, .inr hc])
          obtain ⟨n, hn⟩ : ∃ n, Named objs n := by rcases hb.2 with h | h <;> exact request_named h
          have := Explains.push hb hn (pointer_fmt (env.addr 0))
          rw [named_head hn]
          rcases hk with rfl | rfl <;> simpa [dump, fmtStrings, listed_join] using this
        · have hm := command_means hc
          have h0 : vs = [] := List.length_eq_zero_iff.1 hm.1.symm
          subst h0
          obtain ⟨n, hn⟩ := request_named hm.2
          have := Explains.mset hm.2 hn (pointer_fmt (env.addr 0))
          rw [named_head hn]
          simpa [dump, fmtStrings, Quote.join] using this
      | _ => simp [wrapExec] at hm
    · simp at hh
    · simp at hh

mutual
theorem encode_crlf : ∀ o : Resp, ∃ p, o.encode = p ++ [13, 10]
  | .simple d => ⟨43 :: d, rfl⟩
  | .bulk d => ⟨36 :: (fmtNat d.length ++ Resp.crlf ++ d), by simp [Resp.encode, Resp.crlf]⟩
  | .nullBulk => ⟨b!"$-1", rfl⟩
  | .error m => ⟨45 :: m, rfl⟩
  | .int n => ⟨58 :: fmtInt n, rfl⟩
  | .array items => by
    obtain ⟨p, hp⟩ := encodeList_crlf items (42 :: fmtNat items.length)
    exact ⟨p, by simpa [Resp.encode, Resp.crlf] using hp⟩
  | .nullArray => ⟨b!"*-1", rfl⟩
theorem encodeList_crlf : ∀ (items : List Resp) (q : Bytes), ∃ p, q ++ [13, 10] ++ Resp.encodeList items = p ++ [13, 10]
  | [], q => ⟨q, by simp [Resp.encodeList]⟩
  | o :: os, q => by
    obtain ⟨p, hp⟩ := encode_crlf o
    obtain ⟨p', hp'⟩ := encodeList_crlf os (q ++ [13, 10] ++ p)
    exact ⟨p', by rw [← hp']; simp [Resp.encodeList, hp]⟩
end

theorem folds_command {objs : List Resp} {name n : Bytes} {args : List Bytes} (h : Request objs name args) (hn : Named objs n)
    (hname : (10 : UInt8) ∉ name) : (10 : UInt8) ∉ n := folds_noLF (request_name h hn) hname

theorem printed_noLF {v w : Bytes} (h : PrintedAs v w) : (10 : UInt8) ∉ w := h.2.1.2

theorem lineSafe_between {u t v : Bytes} {x y : UInt8} (hx : x ≠ 13 ∧ x ≠ 10) (hy : y ≠ 13 ∧ y ≠ 10) (hu : (10 : UInt8) ∉ u) (hv : (10 : UInt8) ∉ v) :
    LineSafe (u ++ x :: (t ++ y :: v)) ↔ LineSafe t := by
  rw [lineSafe_sep hx.2 hx.1, lineSafe_sep hy.2 hy.1]
  exact ⟨fun h => h.2.1, fun h => ⟨lineSafe_of_noLF hu, h, lineSafe_of_noLF hv⟩⟩

/-- The text of an internal error can be sent exactly if what it repeats of the request can. -/
theorem explains_safe {msg : Bytes} (h : Explains objs msg) :
    LineSafe (b!"ERR vertex server internal error, err=" ++ msg) ↔ ∀ t, Repeated objs t → LineSafe t := by
  cases h with
  | empty =>
    refine ⟨fun _ t ht => ?_, fun _ => lineSafe_of_noLF (by decide)⟩
    generalize he : ([] : List Resp) = l at ht
    cases ht with
    | name => cases he
    | key h => subst he; rcases h.1 with ⟨_, ⟨_, _, h, -⟩, -⟩ | ⟨_, ⟨_, _, h, -⟩, -⟩ <;> cases h
    | value h => subst he; rcases h.2 with ⟨_, ⟨_, _, h, -⟩, -⟩ | ⟨_, ⟨_, _, h, -⟩, -⟩ <;> cases h
  | @name o os hn =>
    obtain ⟨p, hp⟩ := encode_crlf o
    have hbad : ∀ q : Bytes, ¬ LineSafe (q ++ o.encode) := fun q hq => by
      rw [hp, ← List.append_assoc] at hq
      exact not_lineSafe_crlf _ [] hq
    refine ⟨fun h => absurd h ?_, fun h => absurd (h _ (.name hn)) (hbad [])⟩
    rw [← List.append_assoc]
    exact hbad _
  | @step _ n k v w why p q r hb hn hw hp hq hr hy =>
    have hnl : (10 : UInt8) ∉ n := by rcases hb.1 with h | h <;> exact folds_command h hn (by decide)
    have hwl := printed_noLF hw
    have hp := pointer_noLF hp
    have hq := pointer_noLF hq
    have hr := pointer_noLF hr
    have hyl : (10 : UInt8) ∉ why := by rcases hy with ⟨-, rfl⟩ | ⟨-, rfl⟩ <;> decide
    have e : (b!"ERR vertex server internal error, err=" ++ (b!"execute error. name=" ++ n ++ b!", command=&{key:" ++ k ++
        b!" index:1 accessObject:" ++ p ++ b!" arguments:" ++ q ++ b!" result:<nil> err:" ++ r ++ b!"}, err={strconv.ParseInt: parsing " ++ w ++ b!": " ++
        why ++ b!"}") : Bytes) = (b!"ERR vertex server internal error, err=execute error. name=" ++ n ++ b!", command=&{key") ++ 58 :: (k ++ 32 ::
        (b!"index:1 accessObject:" ++ p ++ b!" arguments:" ++ q ++ b!" result:<nil> err:" ++ r ++ b!"}, err={strconv.ParseInt: parsing " ++ w ++ b!": " ++
        why ++ b!"}")) := by simp
    have h1 : (10 : UInt8) ∉ (b!"ERR vertex server internal error, err=execute error. name=" ++ n ++ b!", command=&{key" : Bytes) := by
      simp only [List.mem_append, not_or]; exact ⟨⟨by decide, hnl⟩, by decide⟩
    have h2 : (10 : UInt8) ∉ (b!"index:1 accessObject:" ++ p ++ b!" arguments:" ++ q ++ b!" result:<nil> err:" ++ r ++ b!"}, err={strconv.ParseInt: parsing " ++ w
        ++ b!": " ++ why ++ b!"}" : Bytes) := by
      simp only [List.mem_append, not_or]
      exact ⟨⟨⟨⟨⟨⟨⟨⟨⟨⟨by decide, hp⟩, by decide⟩, hq⟩, by decide⟩, hr⟩, by decide⟩, hwl⟩, by decide⟩, hyl⟩, by decide⟩
    rw [e, lineSafe_between (by decide) (by decide) h1 h2]
    refine ⟨fun h t ht => ?_, fun h => h _ (.key hb)⟩
    cases ht with
    | name h' =>
      obtain ⟨o, os, he, ht⟩ := hn
      cases he
      exact absurd h' (not_notText ht)
    | @key _ _ v' hb' =>
      have : t = k := by
        rcases badStep_command hb with h1 | h1 <;> rcases badStep_command hb' with h2 | h2 <;> rw [h1] at h2 <;> cases h2 <;> rfl
      rw [this]; exact h
    | value hv' =>
      rcases badStep_command hb with h1 | h1 <;> rcases noList_command hv' with h2 | h2 <;> rw [h1] at h2 <;> cases h2
  | @push _ n p vs hb hn hp =>
    have hnl : (10 : UInt8) ∉ n := by rcases hb.2 with h | h <;> exact folds_command h hn (by decide)
    have hp := pointer_noLF hp
    have e : (b!"ERR vertex server internal error, err=" ++ (b!"execute error. name=" ++ n ++ b!", command=&{key: index:1 accessObject:<nil> arguments:[" ++
        listed vs ++ b!"] result:<nil> err:" ++ p ++ b!"}, err={nil access object}") : Bytes) =
        (b!"ERR vertex server internal error, err=execute error. name=" ++ n ++ b!", command=&{key: index:1 accessObject:<nil> arguments:") ++ 91 ::
        (listed vs ++ 93 :: (b!" result:<nil> err:" ++ p ++ b!"}, err={nil access object}")) := by simp
    have h1 : (10 : UInt8) ∉ (b!"ERR vertex server internal error, err=execute error. name=" ++ n ++
        b!", command=&{key: index:1 accessObject:<nil> arguments:" : Bytes) := by
      simp only [List.mem_append, not_or]; exact ⟨⟨by decide, hnl⟩, by decide⟩
    have h2 : (10 : UInt8) ∉ (b!" result:<nil> err:" ++ p ++ b!"}, err={nil access object}" : Bytes) := by
      simp only [List.mem_append, not_or]; exact ⟨⟨by decide, hp⟩, by decide⟩
    rw [e, lineSafe_between (by decide) (by decide) h1 h2, lineSafe_listed]
    refine ⟨fun h t ht => ?_, fun h t ht => h t (.value hb ht)⟩
    cases ht with
    | name h' =>
      obtain ⟨o, os, he, ht⟩ := hn
      cases he
      exact absurd h' (not_notText ht)
    | key hb' =>
      rcases noList_command hb with h1 | h1 <;> rcases badStep_command hb' with h2 | h2 <;> rw [h1] at h2 <;> cases h2
    | @value _ vs' v hv' hm =>
      have : vs' = vs := by
        rcases noList_command hb with h1 | h1 <;> rcases noList_command hv' with h2 | h2 <;> rw [h1] at h2 <;> cases h2 <;> rfl
      rw [this] at hm
      exact h t hm
  | @mset _ n p hb hn hp =>
    have hnl : (10 : UInt8) ∉ n := folds_command hb hn (by decide)
    have hp := pointer_noLF hp
    refine ⟨fun _ t ht => ?_, fun _ => lineSafe_of_noLF ?_⟩
    · have hc : requestCommand objs = .ok (.mset [] []) := means_command (c := .mset [] []) ⟨rfl, hb⟩
      cases ht with
      | name h' =>
        obtain ⟨o, os, he, ht⟩ := hn
        cases he
        exact absurd h' (not_notText ht)
      | key hb' => rcases badStep_command hb' with h2 | h2 <;> rw [hc] at h2 <;> cases h2
      | value hb' => rcases noList_command hb' with h2 | h2 <;> rw [hc] at h2 <;> cases h2
    · simp only [List.mem_append, not_or]
      exact ⟨by decide, ⟨⟨⟨by decide, hnl⟩, by decide⟩, hp⟩, by decide⟩

/-- A request part of which is repeated gets an internal error. -/
theorem repeated_internal {r : Resp} {t : Bytes} (hr : Repeated objs t) (hh : handle env st objs = .ok (st', r)) : InternalError r := by
  unfold handle at hh
  cases hr with
  | name ho =>
    rename_i o os
    have hx : text o = none := by
      cases hx : text o with
      | none => rfl
      | some n => exact absurd (isText_iff.2 hx) (ho n)
    simp only [requestCommand, hx, Outcome.ok.injEq, Prod.mk.injEq] at hh
    exact ⟨_, hh.2.symm⟩
  | key hb =>
    have hv := not_isInt_iff.1 hb.2
    rcases badStep_command hb with hc | hc <;>
      simp only [hc, execute, Exec.incr, Exec.decr, hv, Outcome.ok.injEq, Prod.mk.injEq] at hh <;> exact ⟨_, hh.2.symm⟩
  | value hb =>
    rcases noList_command hb with hc | hc <;>
      simp only [hc, execute, Exec.lpush, Exec.rpush, State.getOrCreateList, if_true, nilAccess, Outcome.ok.injEq, Prod.mk.injEq] at hh <;>
      exact ⟨_, hh.2.symm⟩

/-- C55 (exactly): a reply is read back by the other end as exactly that object, with whatever follows on the connection untouched, if and only if
nothing the server repeats of the request in an error breaks a line: the first object of the request when it is not a string (always), the key when
the step of INCRBY or DECRBY is not an integer, and the values pushed onto the list with the empty name. -/
theorem C55_exact_partial {r : Resp} (h : Abs st a) (ho : env.ord.Fair) (hh : handle env st objs = .ok (st', r)) (hs : Sized r) (rest : Bytes) :
    parse (r.encode ++ rest) = .ok r rest ↔ ∀ t, Repeated objs t → LineSafe t := by
  rw [C01_roundtrip_iff r hs]
  by_cases hi : InternalError r
  · obtain ⟨msg, rfl, hm⟩ := C55_explained h ho hh hi
    rw [← explains_safe hm]
    exact ⟨fun hc => by cases hc with | error h => exact h, fun h => .error h⟩
  · refine ⟨fun _ t ht => absurd (repeated_internal ht hh) hi, fun _ => ?_⟩
    have := C55_framed h ho hh hi hs rest
    exact (C01_roundtrip_iff r hs rest).1 this

/-- C55 (requests without line feeds): a request all of whose parts are strings without a line feed gets a reply that is one object on the wire. -/
theorem C55_plain {r : Resp} {ws : List Bytes} (h : Abs st a) (ho : env.ord.Fair) (hw : List.Forall₂ IsText objs ws) (hl : ∀ w ∈ ws, (10 : UInt8) ∉ w)
    (hh : handle env st objs = .ok (st', r)) (hs : Sized r) (rest : Bytes) : parse (r.encode ++ rest) = .ok r rest := by
  have hmem : ∀ {os : List Resp} {xs : List Bytes}, List.Forall₂ IsText os xs → ∀ {ys : List Bytes}, List.Forall₂ IsText os ys → xs = ys := by
    intro os xs h1
    induction h1 with
    | nil => intro ys h2; cases h2; rfl
    | cons hx _ ih =>
      intro ys h2
      cases h2 with
      | cons hy hys =>
        rw [isText_iff] at hx hy
        rw [hx] at hy
        cases hy
        rw [ih hys]
  have hargs : ∀ {name : Bytes} {args : List Bytes}, Request objs name args → ∀ x ∈ args, x ∈ ws := by
    rintro name args ⟨os, ⟨o, n, rfl, h1, -⟩, h2⟩ x hx
    cases hw with
    | cons h3 h4 => rw [← hmem h2 h4]; exact List.mem_cons_of_mem _ hx
  refine (C55_exact_partial h ho hh hs rest).2 fun t ht => lineSafe_of_noLF ?_
  cases ht with
  | name hn =>
    cases hw with
    | cons h3 h4 => exact absurd hn (not_notText h3)
  | key hb => rcases hb.1 with h | h <;> exact hl _ (hargs h _ (by simp))
  | value hb hm => rcases hb.2 with h | h <;> exact hl _ (hargs h _ (by simp [hm]))

/-- C55 (false as stated): a request whose first object is not a string gets a reply that no reader takes for the object it is, whatever
follows it on the connection: the text of the error quotes the object's own bytes, line breaks included. -/
theorem C55_false {o : Resp} {os : List Resp} (ho : NotText o) : ∃ r, handle env st (o :: os) = .ok (st, r) ∧ InternalError r ∧
    ∀ rest, parse (r.encode ++ rest) ≠ .ok r rest := by
  have hx : text o = none := by
    cases hx : text o with
    | none => rfl
    | some n => exact absurd (isText_iff.2 hx) (ho n)
  refine ⟨.error (b!"ERR vertex server internal error, err=" ++ (b!"invalid command name, raw=" ++ o.encode)), ?_, ⟨_, rfl⟩, ?_⟩
  · simp [handle, requestCommand, hx, errorText]
  · intro rest hp
    rw [C01_roundtrip_iff _ .error] at hp
    obtain ⟨p, hp'⟩ := encode_crlf o
    rw [hp'] at hp
    cases hp with
    | error hl =>
      rw [← List.append_assoc, ← List.append_assoc] at hl
      exact not_lineSafe_crlf _ [] hl

/-- C55 (what the other end reads instead): an integer in front makes the client read a shorter error and then an empty line, which it
refuses: the connection is out of step from then on. -/
theorem C55_out_of_step (n : Int) (os : List Resp) (rest : Bytes) :
    ∃ r t, handle env st (.int n :: os) = .ok (st, r) ∧ parse (r.encode ++ rest) = .ok (.error t) (13 :: 10 :: rest) ∧
      parse (13 :: 10 :: rest) = .bad := by
  let t : Bytes := b!"ERR vertex server internal error, err=" ++ (b!"invalid command name, raw=" ++ 58 :: fmtInt n)
  refine ⟨.error (t ++ [13, 10]), t, ?_, ?_, ?_⟩
  · simp [handle, requestCommand, text, errorText, t, Resp.encode, Resp.crlf]
  · have ht : LineSafe t := lineSafe_of_noLF (by
      simp only [t, List.mem_append, List.mem_cons, not_or]
      refine ⟨by decide, by decide, by decide, fun hc => ?_⟩
      rcases fmtInt_chars n 10 hc with h | h
      · simp at h
      · revert h; decide)
    have := C01_roundtrip (.error t) (.error ht) .error (13 :: 10 :: rest)
    simpa [Resp.encode, Resp.crlf] using this
  · simp [parse, readObject, readToken, readTokenLoop, readLine]

/-- The hypotheses can be met: an ordinary reply, an internal error of a request that names its command by a string, and an integer, an
array and a null array in place of the name. -/
example : ∃ st st' r, Reachable st ∧ Abs st sampleDB ∧ handle env0 st (req [b!"GET", b!"t"]) = .ok (st', r) ∧ ¬ InternalError r ∧
    Sized r ∧ r = .bulk b!"hello" := by
  obtain ⟨st, h1, h2⟩ := sample_reachable
  obtain ⟨out, hs, hob⟩ := handle_refines h2 env0_fair (c := .get b!"t") (request_req (n := b!"GET") _)
  simp only [Step] at hs; subst hs
  obtain ⟨st', h3, -⟩ := hob
  have he : bulk? (sampleDB.strs b!"t") = .bulk b!"hello" := rfl
  rw [he] at h3
  refine ⟨st, st', _, h1, h2, h3, ?_, .bulk (by decide), rfl⟩
  rintro ⟨m, hm⟩
  cases hm
example : handle env0 .empty (req [b!"mset"]) =
    .ok (.empty, .error b!"ERR vertex server internal error, err=execute error. name=mset, command=&{index:1 accessObject:<nil> keys:[] values:[] result:<nil> err:0xc0000ba000}, err={nil access object}") ∧
    ¬ NotText (.bulk b!"mset") := ⟨rfl, fun h => h _ (.bulk _)⟩
set_option maxRecDepth 4000 in
example : handle env0 .empty (req [b!"IncrBy", b!"a\r\nb", b!"9223372036854775808"]) =
    .ok (.empty, .error b!"ERR vertex server internal error, err=execute error. name=IncrBy, command=&{key:a\r\nb index:1 accessObject:0xc0000ba000 arguments:0xc0000ba000 result:<nil> err:0xc0000ba000}, err={strconv.ParseInt: parsing \"9223372036854775808\": value out of range}") := rfl
example : BadStep (req [b!"IncrBy", b!"a\r\nb", b!"9223372036854775808"]) b!"a\r\nb" b!"9223372036854775808" ∧ TooBig b!"9223372036854775808" ∧
    ¬ LineSafe b!"a\r\nb" ∧ ¬ TooBig b!"ten" := by
  refine ⟨⟨.inl (request_req (n := b!"IncrBy") _), not_isInt_iff.2 (by decide)⟩, (intRange_iff (by decide)).1 (by decide), not_lineSafe_crlf b!"a" b!"b", fun h => ?_⟩
  exact absurd ((intRange_iff (by decide)).2 h) (by decide)
example : handle env0 .empty (req [b!"rpush", b!"", b!"x", b!"y\n\nz"]) =
    .ok (.empty, .error b!"ERR vertex server internal error, err=execute error. name=rpush, command=&{key: index:1 accessObject:<nil> arguments:[x y\n\nz] result:<nil> err:0xc0000ba000}, err={nil access object}") ∧
    NoList (req [b!"rpush", b!"", b!"x", b!"y\n\nz"]) [b!"x", b!"y\n\nz"] ∧ ¬ LineSafe b!"y\n\nz" :=
  ⟨rfl, ⟨by simp, .inr (request_req (n := b!"rpush") _)⟩, fun h => h.2 ⟨b!"y", b!"z", rfl⟩⟩
example : NotText (.int 5) ∧ NotText (.array [.bulk b!"GET"]) ∧ NotText .nullArray := by
  refine ⟨?_, ?_, ?_⟩ <;> (intro n h; cases h)
example : handle env0 .empty [.int 5] =
    .ok (.empty, .error b!"ERR vertex server internal error, err=invalid command name, raw=:5\r\n") := rfl

end Verif.Props
