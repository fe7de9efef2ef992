import Verif.Props.Desk

/-! Any play of two users, one line after the other, can happen. This is used for examples. -/

namespace Verif.Props

open Spec
open Fut (upd)

variable {ω : Nat → Nat} {d : Bytes} {st : State}

namespace Script

/-- Somebody types some words and sees a reply. -/
abbrev Line := Nat × List Bytes × Resp

/-- What is sent for some words. -/
abbrev sent (ws : List Bytes) : Bytes := (Resp.array (ws.map .bulk)).encode

/-- What happens at the server for one line, with request number `n`. -/
abbrev round (n : Nat) (x : Line) : List Net.Ev :=
  [.feed x.1 (.arrived (sent x.2.1)), .read x.1 n (.array (req x.2.1)), .pipe (.taken n), .pipe (.executed n env0 x.2.2), .pipe (.queued n), .pipe (.answering n),
    .pipe (.wrote x.1 n x.2.2.encode)]

/-- And for a whole play. -/
def rounds : Nat → List Line → List Net.Ev
  | _, [] => []
  | n, x :: xs => round n x ++ rounds (n + 1) xs

/-- The users 7 and 8. -/
def isUser (c : Nat) : Bool := c == 7 || c == 8

def idOf (c : Nat) : Bytes := if c = 7 then b!"a" else b!"b"

/-- The play can be played. -/
inductive Plays : State → List Line → Prop where
  | nil (st : State) : Plays st []
  | cons {st st1 : State} {c : Nat} {ws : List Bytes} {r : Resp} {xs : List Line} : isUser c = true → handle env0 st (req ws) = .ok (st1, r) →
      parse (sent ws) = .ok (.array (req ws)) [] → Typable (sent ws) → Sized r → Plays st1 xs → Plays st ((c, ws, r) :: xs)

/-- The server waits, with 7 and 8 connected. -/
structure Waits (st : State) (n : Net.Sys) : Prop where
  dead : n.dead = false
  crashed : n.pipe.crashed = false
  engine : n.pipe.engine = none
  worker : n.pipe.worker = none
  requests : n.pipe.requests = []
  responses : n.pipe.responses = []
  buffer : n.pipe.buffer = []
  conn : ∀ c, isUser c = true → n.pipe.conns c = some (idOf c)
  client : ∀ c, isUser c = true → n.pipe.clients.get (idOf c) = some c
  feed : ∀ c, n.feeds c = Feed.new
  db : n.pipe.db = st

theorem play {n : Net.Sys} {xs : List Line} (h : Plays st xs) (hw : Waits st n) : ∃ n', Exec Net.Step n (rounds n.pipe.next xs) n' := by
  induction h generalizing n with
  | nil => exact ⟨n, .nil⟩
  | @cons st st1 c ws r xs hc hh hp _ _ _ ih =>
    obtain ⟨feeds, ⟨conns, clients, next, requests, engine, db, responses, buffer, worker, crashed⟩, out, dead⟩ := n
    obtain ⟨h1, h2, h3, h4, h5, h6, h7, h8, h9, h10, h11⟩ := hw
    simp only at h1 h2 h3 h4 h5 h6 h7 h8 h9 h10 h11
    subst h1 h2 h3 h4 h5 h6 h7 h11
    obtain ⟨n2, g1, g2, g3⟩ : ∃ n2, Exec Net.Step ⟨feeds, ⟨conns, clients, next, [], none, db, [], [], none, false⟩, out, false⟩ (round next (c, ws, r)) n2 ∧ Waits st1 n2 ∧ n2.pipe.next = next + 1 := by
      refine ⟨_, .cons (.feed c _ _ rfl rfl (by simp [h8 c hc]) rfl (.arrive (sent ws) (by simp [h10, Feed.new])))
        (.cons (.read c next _ _ _ rfl (.read _ [] (by simp [upd, h10, Feed.new]) (by simp only [upd, if_true, h10]; exact hp)) (.read c (idOf c) _ rfl (h8 c hc)))
        (.cons (.pipe _ _ rfl rfl (.take next _ [] [] rfl rfl rfl))
        (.cons (.pipe _ _ rfl rfl (.execute next _ (idOf c) _ env0 _ _ rfl rfl rfl hh))
        (.cons (.pipe _ _ rfl rfl (.queue next _ [] [] rfl rfl (Nat.zero_lt_succ 99)))
        (.cons (.pipe _ _ rfl rfl (.answer next _ [] (idOf c) r c rfl rfl rfl rfl (h9 c hc)))
        (.one (.pipe _ _ rfl rfl (.write next c _ rfl rfl)))))))), ⟨rfl, rfl, rfl, rfl, rfl, rfl, rfl, h8, h9, ?_, rfl⟩, rfl⟩
      intro c'
      by_cases hcc : c' = c
      · subst hcc; simp [upd, h10, Feed.new]
      · simp [upd, hcc, h10]
    obtain ⟨n3, g4⟩ := ih g2
    rw [g3] at g4
    exact ⟨n3, g1.append g4⟩

/-- Both are connected, and then they play. -/
abbrev whole (xs : List Line) : List Net.Ev := [.pipe (.connected 7), .pipe (.connected 8)] ++ rounds 0 xs

theorem open_play {xs : List Line} (h : Plays st xs) : ∃ n, Exec Net.Step (Net.new st) (whole xs) n := by
  obtain ⟨n, h1, h2, h3⟩ : ∃ n, Exec Net.Step (Net.new st) [.pipe (.connected 7), .pipe (.connected 8)] n ∧ Waits st n ∧ n.pipe.next = 0 := by
    refine ⟨_, .cons (.pipe _ _ rfl rfl (.connect 7 b!"a" rfl rfl (fun _ => by simp [Net.new, Pipe.new])))
      (.one (.pipe _ _ rfl rfl (.connect 8 b!"b" rfl rfl (fun c => by simp only [Net.new, Pipe.new, upd]; split <;> simp)))),
      ⟨rfl, rfl, rfl, rfl, rfl, rfl, rfl, ?_, ?_, fun _ => rfl, rfl⟩, rfl⟩
    · intro c hc
      simp only [isUser, Bool.or_eq_true, beq_iff_eq] at hc
      rcases hc with rfl | rfl <;> rfl
    · intro c hc
      simp only [isUser, Bool.or_eq_true, beq_iff_eq] at hc
      rcases hc with rfl | rfl <;> rfl
  obtain ⟨n', h4⟩ := play h h2
  exact ⟨n', h1.append (h3 ▸ h4)⟩

theorem done_rounds (n : Nat) (xs : List Line) : doneIn (rounds n xs) = (xs.zipIdx n).map fun y => (y.2, env0, y.1.2.2) := by
  induction xs generalizing n with
  | nil => rfl
  | cons x xs ih => simp [rounds, doneIn, ih]

theorem answers_rounds (c n : Nat) (xs : List Line) :
    answersTo c (rounds n xs) = ((xs.zipIdx n).filter fun y => y.1.1 == c).map fun y => (y.2, y.1.2.2.encode) := by
  induction xs generalizing n with
  | nil => rfl
  | cons x xs ih => by_cases h : x.1 = c <;> simp [rounds, answersTo, ih, h]

theorem asked_rounds (c n : Nat) (xs : List Line) :
    askedBy c (rounds n xs) = ((xs.zipIdx n).filter fun y => y.1.1 == c).map fun y => (y.2, .array (req y.1.2.1)) := by
  induction xs generalizing n with
  | nil => rfl
  | cons x xs ih => by_cases h : x.1 = c <;> simp [rounds, askedBy, ih, h]

theorem pieces_rounds (c n : Nat) (xs : List Line) : (piecesOf c (rounds n xs)).length = ((xs.zipIdx n).filter fun y => y.1.1 == c).length := by
  induction xs generalizing n with
  | nil => rfl
  | cons x xs ih => by_cases h : x.1 = c <;> simp [rounds, piecesOf, ih, h]

/-- In a play everybody waits for the reply. -/
theorem patient_rounds {xs : List Line} (h : Plays st xs) (n : Nat) :
    ∀ before c b after, rounds n xs = before ++ .feed c (.arrived b) :: after → Typable b ∧ (piecesOf c before).length = (answersTo c before).length := by
  induction h generalizing n with
  | nil => intro before c b after e; simp [rounds] at e
  | @cons st st1 c ws r xs _ _ _ ht _ _ ih =>
    intro before c' b after e
    match before, e with
    | [], e => simp only [rounds, round, List.cons_append, List.nil_append, List.cons.injEq, Net.Ev.feed.injEq, Feed.Ev.arrived.injEq] at e
               obtain ⟨⟨rfl, rfl⟩, -⟩ := e
               exact ⟨ht, rfl⟩
    | [_], e | [_, _], e | [_, _, _], e | [_, _, _, _], e | [_, _, _, _, _], e | [_, _, _, _, _, _], e => simp [rounds, round] at e
    | x0 :: x1 :: x2 :: x3 :: x4 :: x5 :: x6 :: before, e =>
      simp only [rounds, round, List.cons_append, List.nil_append, List.cons.injEq] at e
      obtain ⟨rfl, rfl, rfl, rfl, rfl, rfl, rfl, e⟩ := e
      obtain ⟨g1, g2⟩ := ih (n + 1) before c' b after e
      refine ⟨g1, ?_⟩
      by_cases hc : c = c' <;> simp [piecesOf, answersTo, hc, g2]

/-- Any play can happen, and everybody sees the replies to their lines. -/
theorem played {xs : List Line} (h : Plays st xs) {a0 : DB} (h0 : Abs st a0) : ∃ tr s, Exec (Desk.Step ω isUser) (Desk.new d st) tr s ∧
    seenIn (serverOf tr) = whole xs ∧ (∀ x ∈ doneIn (seenIn (serverOf tr)), x.2.1.ord.Fair ∧ Sized x.2.2) ∧
    ∀ c, isUser c = true → shownTo c tr = (xs.filter fun x => x.1 == c).map (fun x => x.2.2) ∧
      List.Forall₂ Words (typedBy c tr) ((xs.filter fun x => x.1 == c).map fun x => x.2.1) := by
  obtain ⟨n, hn⟩ := open_play h
  obtain ⟨ftr, f, h1, h2, -, -, h3⟩ := C82_open (ω := ω) (d := d) hn (by
    have : ∀ k xs, ∀ c m, .pipe (.refused c m) ∉ rounds k xs := by
      intro k xs
      induction xs generalizing k with
      | nil => simp [rounds]
      | cons x xs ih => intro c m; simp [rounds, ih]
    simp [this])
  have hdone : doneIn (seenIn ftr) = (xs.zipIdx 0).map fun y => (y.2, env0, y.1.2.2) := by rw [h2, ← done_rounds]; rfl
  have hsized : ∀ x ∈ xs, Sized x.2.2 := by
    clear hdone h1 h2 h3 hn h0
    induction h with
    | nil => simp
    | cons _ _ _ _ hs _ ih => exact List.forall_mem_cons.2 ⟨hs, ih⟩
  have ho : ∀ x ∈ doneIn (seenIn ftr), x.2.1.ord.Fair ∧ Sized x.2.2 := by
    intro x hx
    rw [hdone] at hx
    obtain ⟨y, hy, rfl⟩ := List.mem_map.1 hx
    exact ⟨env0_fair, hsized _ (List.fst_mem_of_mem_zipIdx hy)⟩
  have hat : ∀ c, isUser c = true → Attended c ftr := by
    intro c hc
    refine ⟨(h3 c).2, ?_, fun before b after e => ?_⟩
    · have : ∀ k xs, ∀ c, .feed c .ended ∉ rounds k xs := by
        intro k xs
        induction xs generalizing k with
        | nil => simp [rounds]
        | cons x xs ih => intro c; simp [rounds, ih]
      simp [h2, this]
    · rw [h2] at e
      match before, e with
      | [], e | [_], e => simp at e
      | x0 :: x1 :: before, e =>
        simp only [List.cons_append, List.nil_append, List.cons.injEq] at e
        obtain ⟨rfl, rfl, e⟩ := e
        obtain ⟨g1, g2⟩ := patient_rounds h 0 before c b after e
        exact ⟨g1, by simpa [piecesOf, answersTo] using g2⟩
  obtain ⟨tr, s, g1, rfl, rfl, g4⟩ := C85_possible (U := isUser) h0 h1 ho hat
  refine ⟨tr, s, g1, h2, ho, fun c hc => ?_⟩
  have hans : answersTo c (seenIn (serverOf tr)) = ((xs.zipIdx 0).filter fun y => y.1.1 == c).map fun y => (y.2, y.1.2.2.encode) := by
    rw [h2, ← answers_rounds]; rfl
  have hask : askedBy c (seenIn (serverOf tr)) = ((xs.zipIdx 0).filter fun y => y.1.1 == c).map fun y => (y.2, .array (req y.1.2.1)) := by
    rw [h2, ← asked_rounds]; rfl
  have hpc : (piecesOf c (seenIn (serverOf tr))).length = ((xs.zipIdx 0).filter fun y => y.1.1 == c).length := by
    rw [h2, ← pieces_rounds]; rfl
  have hfil : ∀ {α : Type} (f : Line → α), ((xs.zipIdx 0).filter fun y => y.1.1 == c).map (fun y => f y.1) = (xs.filter fun x => x.1 == c).map f := by
    intro α f
    have : ∀ k, ((xs.zipIdx k).filter fun y => y.1.1 == c).map (fun y => f y.1) = (xs.filter fun x => x.1 == c).map f := by
      clear hans hask hpc ho hdone hsized h h2 hn
      induction xs with
      | nil => simp
      | cons x xs ih =>
        intro k
        by_cases hx : x.1 = c
        · simp [hx]
          simpa using ih (k + 1)
        · simp [hx]
          simpa using ih (k + 1)
    exact this 0
  have ht := termInv h0 g1 ho hc
  constructor
  · rw [← hfil]
    refine List.ext_getElem? fun i => ?_
    have hlen : (shownTo c tr).length = ((xs.zipIdx 0).filter fun y => y.1.1 == c).length := by rw [(g4 c hc).2, hans, List.length_map]
    by_cases hi : i < (shownTo c tr).length
    · obtain ⟨k, env, k1, k2⟩ := ht.shown i _ (List.getElem?_eq_getElem hi)
      rw [hans, List.getElem?_map] at k1
      rw [List.getElem?_map, List.getElem?_eq_getElem hi]
      rw [hdone] at k2
      obtain ⟨y', m1, m2⟩ := List.mem_map.1 k2
      cases hy : ((xs.zipIdx 0).filter fun y => y.1.1 == c)[i]? with
      | none => rw [hy] at k1; cases k1
      | some y =>
        rw [hy] at k1
        simp only [Option.map_some, Option.some.injEq, Prod.mk.injEq] at k1 m2 ⊢
        have hym : y ∈ xs.zipIdx 0 := (List.mem_filter.1 (List.mem_of_getElem? hy)).1
        obtain ⟨x, j⟩ := y
        obtain ⟨x', j'⟩ := y'
        have e1 := List.mem_zipIdx_iff_getElem?.1 hym
        have e2 := List.mem_zipIdx_iff_getElem?.1 m1
        simp only at e1 e2 k1 m2 ⊢
        rw [k1.1] at e1
        rw [m2.1, e1] at e2
        cases e2
        exact m2.2.2.symm
    · rw [List.getElem?_eq_none (by omega), List.getElem?_eq_none (by simp; omega)]
  · obtain ⟨wss, w1, w2⟩ := ht.lines.asked (C85_parts g1)
    have hl : wss.length = ((xs.zipIdx 0).filter fun y => y.1.1 == c).length := by rw [← w1.length_eq, (g4 c hc).1, hpc]
    have : wss = (xs.filter fun x => x.1 == c).map fun x => x.2.1 := by
      rw [hask, List.map_map] at w2
      have e := w2.eq_of_length (by simp [hl])
      have e' := hfil fun x => (Resp.array (req x.2.1))
      rw [show (List.map (Prod.snd ∘ fun y : Line × Nat => (y.2, Resp.array (req y.1.2.1))) ((xs.zipIdx 0).filter fun y => y.1.1 == c)) =
        ((xs.zipIdx 0).filter fun y => y.1.1 == c).map (fun y => Resp.array (req y.1.2.1)) from rfl, e'] at e
      have inj : Function.Injective fun ws : List Bytes => Resp.array (ws.map .bulk) := by
        intro a b hab
        have := Resp.array.inj hab
        exact List.map_injective_iff.2 (fun _ _ h => Resp.bulk.inj h) this
      refine List.map_injective_iff.2 inj ?_
      rw [← e, List.map_map]
      rfl
    exact this ▸ w1

end Script

end Verif.Props
