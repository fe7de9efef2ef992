import Verif.Props.Refused
import Verif.Props.Feed

/-! # C110 – refused input on a connection -/

namespace Verif.Props

open Verif Spec Feed

theorem stopped_iff {tr : List Feed.Ev} {s : Feed.Sys} (h : Exec Feed.Step Feed.new tr s) : s.pc = .stopped ↔ .stopped ∈ tr := by
  refine h.inv (P := fun tr s => s.pc = .stopped ↔ Feed.Ev.stopped ∈ tr) (by simp [Feed.new]) ?_
  rintro tr s e s' _ ih hs
  cases hs with
  | arrive _ _ | finish _ => simpa using ih
  | read _ _ hr _ => simpa using ih
  | stop _ _ => simp
  | leave hr _ _ | crash hr _ => rw [hr] at ih; simpa using ih

/-- C110: if a client sends whole requests and then something refused, then once the server is done with it, it has read those requests and no others, and has stopped reading
– however the bytes were cut into pieces, and whatever came after. -/
theorem C110_connection {tr : List Feed.Ev} {s : Feed.Sys} (h : Exec Feed.Step Feed.new tr s) (hr : AtRest s) {os : List Resp} {b g r : Bytes}
    (ha : arrivedOf tr = b ++ (g ++ r)) (ht : TakenAll os b) (hg : Refused g) : readOf tr = os ∧ .stopped ∈ tr := by
  have hb : parse (g ++ r) = .bad := (C110_refused _).2 ⟨g, r, rfl, hg⟩
  have hi : Incomplete (g ++ r) := fun o b' r' e ho => by
    rw [(C62_read _ o r').2 ⟨b', e, ho⟩] at hb
    cases hb
  obtain ⟨u, h1, h2⟩ := C69_requests h
  have d := drain_of h1 (rest_incomplete h hr)
  rw [← h2, ha] at d
  obtain ⟨e1, e2⟩ := drain_det d (drain_of ht hi)
  refine ⟨e1, (stopped_iff h).1 ?_⟩
  obtain ⟨-, g2, g3⟩ := pc_parse h
  rw [e2] at g2 g3
  cases hp : s.pc with
  | reading => exact absurd (hr _ _ (.stop hp (by rw [e2]; exact hb))) id
  | stopped => rfl
  | left => rw [hb] at g3; cases (g3 hp).1
  | crashed => rw [hb] at g2; cases g2 hp

/-- C110: and only then does a server stop reading because of what it was sent. -/
theorem C110_stopped {tr : List Feed.Ev} {s : Feed.Sys} (h : Exec Feed.Step Feed.new tr s) (hs : .stopped ∈ tr) :
    ∃ b g r, arrivedOf tr = b ++ (g ++ r) ∧ TakenAll (readOf tr) b ∧ Refused g := by
  obtain ⟨u, h1, h2⟩ := C69_requests h
  obtain ⟨g, r, e, hg⟩ := (C110_refused _).1 ((pc_parse h).1 ((stopped_iff h).2 hs))
  exact ⟨u, g, r, by rw [h2, e], h1, hg⟩

/-! A request, a line typed by hand, and one more request, which is not read. -/
example : ∃ tr s, Exec Feed.Step Feed.new tr s ∧ AtRest s ∧ arrivedOf tr = b!":1\r\n" ++ (b!"get k\r\n" ++ b!":2\r\n") ∧ TakenAll [.int 1] b!":1\r\n" ∧
    Refused b!"get k\r\n" ∧ readOf tr = [.int 1] := by
  have ht : TakenAll [.int 1] b!":1\r\n" := TakenAll.cons (b := b!":1\r\n") (Taken.int (t := b!"1") (parseInt64_eq_some.1 (by decide))) .nil
  have hg : Refused b!"get k\r\n" := Refused.marker (d := b!"get k") (lineSafe_of_noLF (by decide)) (by decide) (by decide)
  refine ⟨[.arrived b!":1\r\nget", .arrived b!" k\r\n:2\r\n", .read (.int 1), .stopped], { pending := b!"get k\r\n:2\r\n", ended := false, pc := .stopped },
    (((Exec.nil.snoc (.arrive _ rfl)).snoc (.arrive _ rfl)).snoc (.read (.int 1) b!"get k\r\n:2\r\n" rfl rfl)).snoc (.stop rfl rfl), ?_, by decide, ht, hg, rfl⟩
  intro e s' hs
  cases hs with
  | arrive _ _ => trivial
  | finish _ => trivial
  | read _ _ hr _ => cases hr
  | stop hr _ => cases hr
  | leave hr _ _ => cases hr
  | crash hr _ => cases hr

end Verif.Props
