import Verif.Props.Durable
import Verif.Spec.Lives

/-! # C78 – one server after the other on the same file -/

namespace Verif.Props

open Spec

/-- What a life leaves in the file, and what it answered. -/
theorem life_file {d d' : Bytes} {h : List Req} {rs : List Resp} (hl : Life Unhurried d h rs d') :
    d' = d ++ historyLog h ∧ ∃ st st', Begins d st ∧ serve st (served h) = .ok (st', rs) := by
  obtain ⟨ω, st, e, hb, hr, ⟨i1, i2, i3⟩, ⟨hf, hbuf⟩, rfl, rfl⟩ := hl
  obtain ⟨done, h1, -, -, h4⟩ := ordered_inv hr
  rw [i1, i2] at h1
  rw [i2, i3, hbuf] at h4
  simp only [Option.toList_none, List.append_nil] at h1 h4
  subst h1
  refine ⟨by simpa [historyLog] using h4 hf, st, ?_⟩
  obtain ⟨done', written, -, h5⟩ := runInv_steps (runInv_startOn d st h) (Relation.ReflTransGen.mono (r := Unhurried ω) (p := Engine.Step ω) (fun _ _ h => h.1) _ _ hr)
  have := h5.split
  rw [i1, i2] at this
  simp only [Option.toList_none, List.append_nil] at this
  subst this
  exact ⟨e.db, hb, h5.served⟩

theorem trace_append {a b c : DB} {qs qs' : List (List Resp)} {rs rs' : List Resp} (h : Trace a qs rs b) (h' : Trace b qs' rs' c) :
    Trace a (qs ++ qs') (rs ++ rs') c := by
  induction h with
  | nil => exact h'
  | ok h1 h2 _ ih => exact .ok h1 h2 (ih h')
  | err h1 h2 h3 _ ih => exact .err h1 h2 h3 (ih h')
  | bad h1 _ ih => exact .bad h1 (ih h')

theorem lives_inv {hs : List (List Req)} {rss : List (List Resp)} {d : Bytes} (hl : Lives Unhurried hs rss d)
    (ho : ∀ h ∈ hs, ∀ q ∈ h, q.Occurs ∧ ¬ q.Is b!"ltrim" ∧ ¬ q.Is b!"spop" ∧ ∀ o ∈ q.objs, TextObj o) :
    d = historyLog hs.flatten ∧ ∃ a, Trace DB.empty (hs.flatten.map Req.objs) rss.flatten a ∧
      ∀ envs : Nat → Env, (∀ i, (envs i).ord.Fair) → ∀ tail, ∃ dbs n,
        buildFromLog noDBs envs (historyRecords hs.flatten ++ tail) = buildFromLog dbs (fun i => envs (i + n)) tail ∧ Abs (dbs 1) a ∧
        ∀ i, i ≠ 1 → dbs i = State.empty := by
  induction hl with
  | none => exact ⟨rfl, DB.empty, .nil _, fun envs _ tail => ⟨noDBs, 0, rfl, abs_empty, fun _ _ => rfl⟩⟩
  | @next hs rss d d' h rs _ hlife ih =>
    obtain ⟨rfl, a, h1, h2⟩ := ih fun h hh => ho h (List.mem_append_left _ hh)
    have hh := ho h (by simp)
    have hpast : ∀ q ∈ hs.flatten, q.Occurs ∧ ∀ o ∈ q.objs, TextObj o := fun q hq => by
      obtain ⟨k, hk, hq⟩ := List.mem_flatten.1 hq
      have := ho k (List.mem_append_left _ hk) q hq
      exact ⟨this.1, this.2.2.2⟩
    obtain ⟨rfl, st, st', ⟨envs0, dbs0, hf0, hb0, rfl⟩, hserve⟩ := life_file hlife
    obtain ⟨dbs1, n1, g1, g2, -⟩ := h2 envs0 hf0 []
    rw [List.append_nil] at g1
    rw [fromFile_history hpast, g1] at hb0
    cases hb0
    obtain ⟨a', t1, t2⟩ := serve_trace g2 (fun q hq => by
      obtain ⟨x, hx, rfl⟩ := List.mem_map.1 hq
      exact (hh x hx).1.fair) hserve
    refine ⟨by rw [List.flatten_append, historyLog_append]; simp, a', ?_, fun envs hf tail => ?_⟩
    · simp only [List.flatten_append, List.flatten_cons, List.flatten_nil, List.append_nil, List.map_append]
      refine trace_append h1 ?_
      rw [served, List.map_map] at t1
      exact t1
    · obtain ⟨dbs2, n2, k1, k2, k3⟩ := h2 envs hf (historyRecords h ++ tail)
      obtain ⟨dbs3, a3, n3, m1, m2, m3, m4⟩ := replay_abs (fun q hq => ⟨(hh q hq).1, (hh q hq).2.1, (hh q hq).2.2.1⟩) g2 hserve k2
        (fun i => hf (i + n2)) tail
      cases abs_unique m2 t2
      refine ⟨dbs3, n3 + n2, ?_, m3, fun i hi => (m4 i hi).trans (k3 i hi)⟩
      have e : historyRecords (hs ++ [h]).flatten = historyRecords hs.flatten ++ historyRecords h := by simp [historyRecords]
      rw [e, List.append_assoc, k1, m1]
      congr 1
      funext i
      rw [Nat.add_assoc]

/-- C78, for requests in UTF-8 other than LTRIM and SPOP, when every writer gets to the file before the next request is received: over any number of
lives the replies are those of one abstract database that is never restarted, and the next server holds its contents. -/
theorem C78_invisible_partial {hs : List (List Req)} {rss : List (List Resp)} {d : Bytes} (hl : Lives Unhurried hs rss d)
    (ho : ∀ h ∈ hs, ∀ q ∈ h, q.Occurs ∧ ¬ q.Is b!"ltrim" ∧ ¬ q.Is b!"spop" ∧ ∀ o ∈ q.objs, TextObj o) :
    ∃ a, Trace DB.empty (hs.flatten.map Req.objs) rss.flatten a ∧ ∀ envs : Nat → Env, (∀ i, (envs i).ord.Fair) →
      ∃ dbs, fromFile noDBs envs d = .ok dbs ∧ Abs (dbs 1) a ∧ ∀ i, i ≠ 1 → dbs i = State.empty := by
  obtain ⟨rfl, a, h1, h2⟩ := lives_inv hl ho
  refine ⟨a, h1, fun envs hf => ?_⟩
  obtain ⟨dbs, n, g1, g2⟩ := h2 envs hf []
  rw [List.append_nil] at g1
  refine ⟨dbs, (fromFile_history (fun q hq => ?_) _ _).trans g1, g2⟩
  obtain ⟨h, hh, hq⟩ := List.mem_flatten.1 hq
  exact ⟨(ho h hh q hq).1, (ho h hh q hq).2.2.2⟩

/-- What any life adds to the file. -/
theorem life_written {d d' : Bytes} {h : List Req} {rs : List Resp} (hl : Life Engine.Step d h rs d') (ho : ∀ q ∈ h, q.Occurs) :
    ∃ w, w.Perm (recorded h) ∧ (∀ q ∈ w, q.Occurs ∧ q.Recorded) ∧ d' = d ++ historyLog w := by
  obtain ⟨ω, st, e, -, hr, ⟨i1, i2, i3⟩, ⟨hf, hbuf⟩, rfl, rfl⟩ := hl
  obtain ⟨done, written, -, hi⟩ := runInv_steps (runInv_startOn d st h) hr
  obtain ⟨g1, g2⟩ := runInv_recorded hi ho
  have hrec : received h e = h.length := by simp [received, i1]
  rw [i3, hrec, List.take_length] at g1
  have h4 := hi.file hf
  rw [hbuf, List.append_nil] at h4
  exact ⟨recorded written, by simpa [recorded] using g1, g2, by rw [recorded_log]; exact h4⟩

/-- C78: whatever the requests are and however their writers overtake each other, the next server executes again, life by life, the requests that leave
a record, those of one life in some order (`C34_all_orders`); it holds the result in database 1 and nothing elsewhere, or dies where this execution dies. -/
theorem C78_exact {hs : List (List Req)} {rss : List (List Resp)} {d : Bytes} (hl : Lives Engine.Step hs rss d) (ho : ∀ h ∈ hs, ∀ q ∈ h, q.Occurs) :
    ∃ ws, List.Forall₂ (fun w h => w.Perm (recorded h)) ws hs ∧
      ∀ envs, fromFile noDBs envs d = filledBy (serve State.empty (again envs ws.flatten)) := by
  have : ∃ ws, List.Forall₂ (fun w h => w.Perm (recorded h)) ws hs ∧ (∀ q ∈ ws.flatten, q.Occurs ∧ q.Recorded) ∧ d = historyLog ws.flatten := by
    induction hl with
    | none => exact ⟨[], .nil, by simp, rfl⟩
    | @next hs rss d d' h rs _ hlife ih =>
      obtain ⟨ws, h1, h2, rfl⟩ := ih fun h hh => ho h (List.mem_append_left _ hh)
      obtain ⟨w, g1, g2, rfl⟩ := life_written hlife (ho h (by simp))
      refine ⟨ws ++ [w], List.rel_append h1 (.cons g1 .nil), ?_, ?_⟩
      · intro q hq
        simp only [List.flatten_append, List.flatten_cons, List.flatten_nil, List.append_nil, List.mem_append] at hq
        exact hq.elim (h2 q) (g2 q)
      · rw [List.flatten_append, historyLog_append]; simp
  obtain ⟨ws, h1, h2, rfl⟩ := this
  refine ⟨ws, h1, fun envs => ?_⟩
  rw [fromFile_recorded fun q hq => (h2 q hq).1]
  congr 3
  rw [recorded, List.filter_eq_self]
  intro q hq
  simpa using (h2 q hq).2

/-- C78: in each life the requests are answered one after the other, beginning with what the server found in the file. -/
theorem C78_replies {d d' : Bytes} {h : List Req} {rs : List Resp} (hl : Life Engine.Step d h rs d') :
    ∃ st st', Begins d st ∧ serve st (served h) = .ok (st', rs) := by
  obtain ⟨ω, st, e, hb, hr, ⟨i1, i2, i3⟩, -, rfl, rfl⟩ := hl
  obtain ⟨done, written, -, hi⟩ := runInv_steps (runInv_startOn d st h) hr
  have := hi.split
  rw [i1, i2] at this
  simp only [Option.toList_none, List.append_nil] at this
  subst this
  exact ⟨st, e.db, hb, hi.served⟩

theorem torn_read {w later : List Req} {q : Req} {part rest : Bytes} (hw : ∀ x ∈ w, x.Occurs ∧ x.Recorded) (hq : q.Occurs)
    (hl : ∀ x ∈ later, x.Occurs ∧ x.Recorded) (he : requestLog q.stamp q.objs = part ++ rest) (h4 : 4 ≤ part.length)
    (hlen : (historyLog later).length < rest.length) : parseLog (historyLog w ++ part ++ historyLog later) = (w.map reqLog, true) := by
  have hr : q.Recorded := by
    apply Classical.byContradiction
    intro hn
    rw [unrecorded_log hn] at he
    have := congrArg List.length he
    simp only [List.length_nil, List.length_append] at this
    omega
  have hpk : ∀ {w : List Req}, (∀ x ∈ w, x.Occurs ∧ x.Recorded) → Packed (w.map reqLog) (w.map fun q => requestLog q.stamp q.objs) := by
    intro w hw
    rw [Packed, List.forall₂_map_left_iff, List.forall₂_map_right_iff, List.forall₂_same]
    intro q hq
    exact logged_packed (hw q hq).1 (hw q hq).2.2.2 ((recorded_iff q).1 (hw q hq).2).1
  have h1 := packed_parse (hpk hw) (part ++ historyLog later)
  rw [show (w.map fun q => requestLog q.stamp q.objs).flatten = historyLog w from rfl] at h1
  have h2 := logged_packed hq hr.2.2 ((recorded_iff q).1 hr).1
  have h3 := parse_torn h2.1 h2.2.2 h4 (r := historyLog later) (by rw [he, List.length_append]; omega)
  rw [he, List.take_left'  rfl] at h3
  rw [List.append_assoc, h1, h3]
  simp

/-- C78: if a server ended in the middle of a record, a whole life of the next one is forgotten as long as it writes less than was missing of that
record: the server after it starts exactly as if that life had not been, although everything was on the disk. -/
theorem C78_forgotten {w h : List Req} {q : Req} {part rest d' : Bytes} {rs : List Resp} (hw : ∀ x ∈ w, x.Occurs) (hq : q.Occurs)
    (he : requestLog q.stamp q.objs = part ++ rest) (h4 : 4 ≤ part.length) (hl : Life Engine.Step (historyLog w ++ part) h rs d')
    (ho : ∀ x ∈ h, x.Occurs) (hlen : (historyLog h).length < rest.length) (envs : Nat → Env) :
    fromFile noDBs envs d' = fromFile noDBs envs (historyLog w ++ part) ∧
      fromFile noDBs envs d' = filledBy (serve State.empty (again envs (recorded w))) := by
  obtain ⟨l, g1, g2, rfl⟩ := life_written hl ho
  have hll : (historyLog l).length < rest.length := by
    have : (historyLog l).length = (historyLog (recorded h)).length := by
      rw [historyLog, historyLog, List.length_flatMap, List.length_flatMap]
      exact (g1.map _).sum_eq
    rw [this, recorded_log]; exact hlen
  have hw' : ∀ x ∈ recorded w, x.Occurs ∧ x.Recorded := fun x hx => ⟨hw x (recorded_mem.1 hx).1, (recorded_mem.1 hx).2⟩
  have p1 := torn_read (later := l) hw' hq g2 he h4 hll
  have p2 := torn_read (later := []) hw' hq (by simp) he h4 (by simp [historyLog]; omega)
  rw [recorded_log] at p1 p2
  simp only [historyLog, List.flatMap_nil, List.append_nil] at p2
  have e : fromFile noDBs envs (historyLog w ++ part ++ historyLog l) = filledBy (serve State.empty (again envs (recorded w))) := by
    rw [fromFile, p1, build_started hw']
  refine ⟨?_, e⟩
  rw [e, fromFile, show historyLog w = List.flatMap _ w from rfl, p2, build_started hw']

/-- The full claim: whatever earlier servers have left in the file, a server that ends at rest with everything on the disk is continued by the next. -/
def Lasting : Prop := ∀ (d : Bytes) (ω : Nat → Nat) (st : State) (h : List Req) (e : Engine) (a : DB), LeftBy Unhurried d → Begins d st →
  (∀ q ∈ h, q.Occurs ∧ ¬ q.Is b!"ltrim" ∧ ¬ q.Is b!"spop" ∧ ∀ o ∈ q.objs, TextObj o) →
  Relation.ReflTransGen (Unhurried ω) (Engine.startOn d st h) e → Idle e → AllOut e → Abs e.db a →
  ∀ envs : Nat → Env, (∀ i, (envs i).ord.Fair) → ∃ dbs, fromFile noDBs envs e.file.disk = .ok dbs ∧ Abs (dbs 1) a

/-- A record that does not fit into the buffer is cut. -/
theorem write_cut {ω : Nat → Nat} (hω : ∀ i, 4096 ≤ ω i) {p : PFile} {b : Bytes} (hp : p.buf ≠ []) (hb : p.buf.length ≤ 4096) (hf : p.failed = false)
    (h1 : 4096 < p.buf.length + b.length) (h2 : p.buf.length + b.length ≤ 8192) :
    (PFile.write ω p b).1 =
      { disk := p.disk ++ p.buf ++ b.take (4096 - p.buf.length), buf := b.drop (4096 - p.buf.length), failed := false, calls := p.calls + 1 } := by
  have hl : (p.buf ++ b.take (4096 - p.buf.length)).length = 4096 := by simp; omega
  have hfl : PFile.flush ω { p with buf := p.buf ++ b.take (4096 - p.buf.length) } =
      { disk := p.disk ++ (p.buf ++ b.take (4096 - p.buf.length)), buf := [], failed := false, calls := p.calls + 1 } := by
    have hne : p.buf ++ b.take (4096 - p.buf.length) ≠ [] := fun h => by rw [h] at hl; simp at hl
    have hm : min (ω p.calls) 4096 = 4096 := Nat.min_eq_right (hω _)
    simp only [PFile.flush, hf, hne, if_false, PFile.sysWrite, hl, hm, Bool.false_eq_true]
    rw [List.take_of_length_le (by omega), List.drop_of_length_le (by omega)]
    simp
  have hlp : PFile.writeLoop ω 3 p b 0 =
      ({ disk := p.disk ++ (p.buf ++ b.take (4096 - p.buf.length)), buf := [], failed := false, calls := p.calls + 1 },
        b.drop (4096 - p.buf.length), 0 + (4096 - p.buf.length)) := by
    rw [PFile.writeLoop, if_pos ⟨by simp only [PFile.bufSize]; omega, hf⟩, if_neg hp]
    simp only [PFile.bufSize]
    rw [hfl, PFile.writeLoop, if_neg]
    rintro ⟨h, -⟩
    simp [PFile.bufSize] at h; omega
  simp [PFile.write, hlp]

/-- A request with a long value. -/
def setLong : Req := sent [b!"set", b!"l", List.replicate 2200 97]

theorem setLong_occurs : setLong.Occurs := sent_occurs (by decide +kernel) (by decide +kernel) (by decide +kernel)

theorem writeRecord_packed {ω : Nat → Nat} {p : PFile} {q : Req} (ho : q.Occurs) (hr : q.Recorded) :
    writeRecord ω p q = (p.write ω (requestLog q.stamp q.objs)).1 := by
  have := (logged_packed ho hr.2.2 ((recorded_iff q).1 hr).1).1
  rw [reqLog] at this
  rw [writeRecord, this]

theorem set1_recorded : set1.Recorded := (recorded_iff _).2 ⟨rfl, set1_ok.2.2.2⟩
theorem set2_recorded : set2.Recorded := (recorded_iff _).2 ⟨rfl, set2_ok.2.2.2⟩
theorem setLong_recorded : setLong.Recorded := (recorded_iff _).2 ⟨rfl, sent_text (by decide +kernel)⟩

/-- What a server leaves that is killed with the end of a long record in its buffer. -/
theorem cut_off : ∃ part rest, requestLog setLong.stamp setLong.objs = part ++ rest ∧ 4 ≤ part.length ∧
    (requestLog set2.stamp set2.objs).length < rest.length ∧ LeftBy Unhurried (historyLog [set1] ++ part) := by
  have l1 : 0 < (requestLog set1.stamp set1.objs).length ∧ (requestLog set1.stamp set1.objs).length ≤ 100 := by decide +kernel
  have l2 : 4096 < (requestLog setLong.stamp setLong.objs).length ∧ (requestLog setLong.stamp setLong.objs).length < 8000 ∧
    (requestLog set2.stamp set2.objs).length + 4096 < (requestLog setLong.stamp setLong.objs).length := by decide +kernel
  obtain ⟨out, hst, hob⟩ := handle_refines abs_empty env0_fair (c := .set b!"k" b!"1") (request_req (n := b!"set") [b!"k", b!"1"])
  simp only [Step] at hst
  subst hst
  obtain ⟨st1, h1, h2⟩ := hob
  obtain ⟨out, hst, hob⟩ := handle_refines h2 env0_fair (c := .set b!"l" (List.replicate 2200 97)) (request_req (n := b!"set") [b!"l", List.replicate 2200 97])
  simp only [Step] at hst
  subst hst
  obtain ⟨st2, h3, -⟩ := hob
  have hω : ∀ i, 4096 ≤ (fun _ : Nat => 100000) i := fun _ => by norm_num
  have hr : Relation.ReflTransGen (Unhurried fun _ => 100000) (Engine.startOn [] State.empty [set1, setLong]) _ :=
    .tail (.tail (.tail (.tail (.tail (.tail .refl ⟨.receive rfl rfl, .inr rfl⟩) ⟨.execute rfl h1, .inl rfl⟩)
      ⟨.write (before := []) (after := []) rfl, .inl rfl⟩) ⟨.receive rfl rfl, .inr rfl⟩) ⟨.execute rfl h3, .inl rfl⟩)
      ⟨.write (before := []) (after := []) rfl, .inl rfl⟩
  have hl := LeftBy.next .none ⟨fun _ => env0, noDBs, fun _ => env0_fair, rfl, rfl⟩
    (by simpa using ⟨set1_ok.1, setLong_occurs⟩) hr (.inl rfl)
  refine ⟨(requestLog setLong.stamp setLong.objs).take (4096 - (requestLog set1.stamp set1.objs).length),
    (requestLog setLong.stamp setLong.objs).drop (4096 - (requestLog set1.stamp set1.objs).length), (List.take_append_drop _ _).symm, ?_, ?_, ?_⟩
  · rw [List.length_take]; omega
  · rw [List.length_drop]; omega
  · have f1 : writeRecord (fun _ => 100000) (PFile.new []) set1 = { disk := [], buf := requestLog set1.stamp set1.objs, failed := false, calls := 0 } := by
      rw [writeRecord_packed set1_ok.1 set1_recorded, write_fits _ (by simp only [PFile.new, List.length_nil, PFile.bufSize]; omega) rfl]
      rfl
    have f2 := write_cut hω (p := { disk := [], buf := requestLog set1.stamp set1.objs, failed := false, calls := 0 })
      (b := requestLog setLong.stamp setLong.objs) (fun h => by rw [show requestLog set1.stamp set1.objs = [] from h] at l1; simp at l1)
      (by simp only; omega) rfl (by simp only; omega) (by simp only; omega)
    have f3 : (writeRecord (fun _ => 100000) (writeRecord (fun _ => 100000) (PFile.new []) set1) setLong).disk =
        historyLog [set1] ++ (requestLog setLong.stamp setLong.objs).take (4096 - (requestLog set1.stamp set1.objs).length) := by
      rw [f1, writeRecord_packed setLong_occurs setLong_recorded, f2]
      simp only [historyLog, List.flatMap_cons, List.flatMap_nil, List.append_nil, List.nil_append]
    rw [← f3]
    exact hl

theorem recorded_self {w : List Req} (h : ∀ q ∈ w, q.Recorded) : recorded w = w := by
  rw [recorded, List.filter_eq_self]
  intro q hq
  simpa using h q hq

/-- A life in which one request is served and everything written out. -/
theorem short_life_on {d : Bytes} {st st' : State} {q : Req} {r : Resp} (hq : q.Occurs) (hr : q.Recorded)
    (hh : handle q.env st q.objs = .ok (st', r)) (hl : (requestLog q.stamp q.objs).length ≤ 4096) (hl' : 0 < (requestLog q.stamp q.objs).length) :
    ∃ e, Relation.ReflTransGen (Unhurried fun _ => 4096) (Engine.startOn d st [q]) e ∧ Idle e ∧ AllOut e ∧ e.replies = [r] ∧ e.db = st' ∧
      e.file.disk = d ++ historyLog [q] := by
  have hlog : isLogged q.objs = true := ((recorded_iff q).1 hr).1
  have h1 : Relation.ReflTransGen (Unhurried fun _ => 4096) (Engine.startOn d st [q]) _ :=
    .tail (.tail (.tail (.tail .refl ⟨.receive rfl rfl, .inr rfl⟩) ⟨.execute rfl hh, .inl rfl⟩)
      ⟨.write (before := []) (after := []) (q := q) (by simp [hlog, Engine.startOn, Engine.start]), .inl rfl⟩) ⟨.flush, .inl rfl⟩
  have f1 : writeRecord (fun _ => 4096) (PFile.new d) q = { disk := d, buf := requestLog q.stamp q.objs, failed := false, calls := 0 } := by
    rw [writeRecord_packed hq hr, write_fits _ (by simpa [PFile.new, PFile.bufSize] using hl) rfl]
    rfl
  have hne : requestLog q.stamp q.objs ≠ [] := fun h => by rw [h] at hl'; simp at hl'
  have f2 : PFile.flush (fun _ => 4096) { disk := d, buf := requestLog q.stamp q.objs, failed := false, calls := 0 } =
      { disk := d ++ requestLog q.stamp q.objs, buf := [], failed := false, calls := 1 } := by
    simp [PFile.flush, PFile.sysWrite, hne, Nat.min_eq_right hl]
  refine ⟨_, h1, ⟨rfl, rfl, rfl⟩, ?_, rfl, rfl, ?_⟩
  · simp only [Engine.startOn, Engine.start, AllOut, f1, f2, and_self]
  · simp only [Engine.startOn, Engine.start, f1, f2, historyLog, List.flatMap_cons, List.flatMap_nil, List.append_nil]

theorem short_life {d : Bytes} {st st' : State} {q : Req} {r : Resp} (_ : Begins d st) (hq : q.Occurs) (hr : q.Recorded)
    (hh : handle q.env st q.objs = .ok (st', r)) (hl : (requestLog q.stamp q.objs).length ≤ 4096) (hl' : 0 < (requestLog q.stamp q.objs).length) :
    ∃ e, Relation.ReflTransGen (Unhurried fun _ => 4096) (Engine.startOn d st [q]) e ∧ Idle e ∧ AllOut e ∧ e.replies = [r] ∧ e.db = st' ∧
      e.file.disk = d ++ historyLog [q] := short_life_on hq hr hh hl hl'

/-- C78 is false: a server killed with the end of a long record in its buffer makes the next one forget what it is told. -/
theorem C78_false : ¬ Lasting := by
  intro H
  obtain ⟨part, rest, h1, h2, h3, h4⟩ := cut_off
  have hs : serve State.empty (again (fun _ => env0) [set1]) = .ok (_, [.simple b!"OK"]) := rfl
  have hstart := torn_read (w := [set1]) (later := []) (by simpa using ⟨set1_ok.1, set1_recorded⟩) setLong_occurs (by simp) h1 h2
    (by simp [historyLog]; omega)
  simp only [show historyLog [] = [] from rfl, List.append_nil] at hstart
  have hfrom : fromFile noDBs (fun _ => env0) (historyLog [set1] ++ part) = filledBy (serve State.empty (again (fun _ => env0) [set1])) := by
    rw [fromFile, hstart, build_started (by simpa using ⟨set1_ok.1, set1_recorded⟩)]
  have hb : Begins (historyLog [set1] ++ part) _ := ⟨fun _ => env0, _, fun _ => env0_fair, hfrom.trans (by rw [hs]; rfl), rfl⟩
  obtain ⟨e, g1, g2, g3, g4, g5, g6⟩ := short_life hb set2_ok.1 set2_recorded rfl (by decide +kernel) (by decide +kernel)
  have hlife : Life Engine.Step (historyLog [set1] ++ part) [set2] e.replies e.file.disk := ⟨_, _, e, hb,
    Relation.ReflTransGen.mono (r := Unhurried fun _ => 4096) (p := Engine.Step fun _ => 4096) (fun _ _ h => h.1) _ _ g1, g2, g3, rfl, rfl⟩
  obtain ⟨-, k2⟩ := C78_forgotten (w := [set1]) (by simpa using set1_ok.1) setLong_occurs h1 h2 hlife (by simpa using set2_ok.1)
    (by simpa [historyLog] using h3) (fun _ => env0)
  rw [recorded_self (by simpa using set1_recorded), hs] at k2
  obtain ⟨a, ha⟩ : ∃ a, Abs e.db a := by
    obtain ⟨a, -, ha⟩ := serve_trace (reqs := served [set1, set2]) abs_empty (by simp [served, set1, set2, sent, env0_fair]) rfl
    exact ⟨a, g5 ▸ ha⟩
  obtain ⟨dbs, m1, m2⟩ := H _ _ _ _ e a h4 hb (by simpa using set2_ok) g1 g2 g3 ha (fun _ => env0) (fun _ => env0_fair)
  rw [k2] at m1
  cases m1
  rw [g5] at ha
  rcases differ ha m2 [b!"k"] b!"get" (by decide) (r := .bulk b!"2") (s := .bulk b!"1") rfl rfl with e | ⟨⟨_, e⟩, _⟩ <;> cases e

/-- Two lives, of one request each. -/
example : ∃ d, Lives Unhurried [[set1], [set2]] [[.simple b!"OK"], [.simple b!"OK"]] d := by
  obtain ⟨e, g1, g2, g3, g4, -, g6⟩ := short_life (d := []) ⟨fun _ => env0, noDBs, fun _ => env0_fair, rfl, rfl⟩ set1_ok.1 set1_recorded rfl
    (by decide +kernel) (by decide +kernel)
  have hs : serve State.empty (again (fun _ => env0) [set1]) = .ok (_, [.simple b!"OK"]) := rfl
  have hb : Begins ([] ++ historyLog [set1]) _ := ⟨fun _ => env0, _, fun _ => env0_fair, by
    rw [List.nil_append, C33_exact (by simpa using set1_ok.1), recorded_self (by simpa using set1_recorded), hs]; rfl, rfl⟩
  obtain ⟨e', k1, k2, k3, k4, -, k6⟩ := short_life hb set2_ok.1 set2_recorded rfl (by decide +kernel) (by decide +kernel)
  have b0 : Begins [] (noDBs 1) := ⟨fun _ => env0, noDBs, fun _ => env0_fair, rfl, rfl⟩
  exact ⟨_, .next (hs := [[set1]]) (rss := [_]) (.next (hs := []) (rss := []) .none ⟨_, _, e, b0, g1, g2, g3, g4, g6⟩) ⟨_, _, e', hb, k1, k2, k3, k4, rfl⟩⟩

end Verif.Props
