import Verif.Spec.AnyLog
import Verif.Props.Wire
import Verif.Props.Resp
import Verif.Lemmas.Request
import Verif.Lemmas.Sample
import Verif.Spec.History

/-! # C109 – a server started on any log at all -/

namespace Verif.Props

open Spec

theorem readTexts_unique {ts : List Bytes} {os os' : List Resp} (h : ReadTexts ts os) (h' : ReadTexts ts os') : os = os' := by
  induction h generalizing os' with
  | nil => cases h'; rfl
  | @read o b r ts os ht _ ih =>
    generalize e : b ++ r = t at h'
    cases h' with
    | @read o' b' r' _ _ ht' g =>
      have h1 := taken_parse ht r
      rw [e, taken_parse ht' r'] at h1
      cases h1
      rw [ih g]
    | left hn g => exact absurd ⟨o, b, r, ht, e.symm⟩ hn
  | left hn _ ih =>
    cases h' with
    | read ht' g => exact absurd ⟨_, _, _, ht', rfl⟩ hn
    | left _ g => exact ih g

theorem convert_reads (ts : List Bytes) :
    (∃ os, convertArguments ts = .ok os ∧ ReadTexts ts os) ∨ convertArguments ts = .panic ∧ ∃ t ∈ ts, ReachesMinusTwo t := by
  induction ts with
  | nil => exact .inl ⟨[], rfl, .nil⟩
  | cons t ts ih =>
    have left : (∀ o r, parse t ≠ .ok o r) → ¬ ∃ o b r, Taken o b ∧ t = b ++ r := by
      rintro h ⟨o, b, r, ht, rfl⟩
      exact h o r (taken_parse ht r)
    have rest : convertArguments (t :: ts) = convertArguments ts → (∀ o r, parse t ≠ .ok o r) →
        (∃ os, convertArguments (t :: ts) = .ok os ∧ ReadTexts (t :: ts) os) ∨ convertArguments (t :: ts) = .panic ∧ ∃ t' ∈ t :: ts, ReachesMinusTwo t' := fun e hn => by
      rw [e]
      rcases ih with ⟨os, h1, h2⟩ | ⟨h1, t', h2, h3⟩
      · exact .inl ⟨os, h1, .left (left hn) h2⟩
      · exact .inr ⟨h1, t', List.mem_cons_of_mem _ h2, h3⟩
    cases hp : parse t with
    | ok o r =>
      obtain ⟨b, rfl, ht⟩ := (C62_read _ _ _).1 hp
      rcases ih with ⟨os, h1, h2⟩ | ⟨h1, t', h2, h3⟩
      · exact .inl ⟨o :: os, by simp only [convertArguments, hp, h1]; rfl, .read ht h2⟩
      · exact .inr ⟨by simp only [convertArguments, hp, h1]; rfl, t', List.mem_cons_of_mem _ h2, h3⟩
    | panic => exact .inr ⟨by simp only [convertArguments, hp], t, by simp, (C05_panic_iff t).1 hp⟩
    | stuck => exact absurd hp (parse_not_stuck t)
    | eof | bad => exact rest (by simp only [convertArguments, hp]) fun o r h => by rw [hp] at h; cases h

/-- C109: whatever records a server finds, whoever wrote them: it executes those that ask for a command, one after the other, each in the database it names, with the arguments that can be
read, and skips the others. It dies only where a record has an argument that kills the reader, or asks for a command that kills the server. -/
theorem C109_replay {dbs : DBs} {s : Int → DB} (h0 : ∀ i, Abs (dbs i) (s i)) {envs : Nat → Env} (hf : ∀ i, (envs i).ord.Fair) (vs : List VLog) :
    (∃ dbs' s', buildFromLog dbs envs vs = .ok dbs' ∧ Replays s vs s' ∧ ∀ i, Abs (dbs' i) (s' i)) ∨
      buildFromLog dbs envs vs = .panic ∧ ∃ before v after s', vs = before ++ v :: after ∧ Replays s before s' ∧
        ((∃ t ∈ v.args, ReachesMinusTwo t) ∨ ∃ c, AsksFor v c ∧ Step (s' v.index) c none) := by
  induction vs generalizing dbs s envs with
  | nil => exact .inl ⟨dbs, s, rfl, .nil, h0⟩
  | cons v vs ih =>
    have hf' : ∀ i, (envs (i + 1)).ord.Fair := fun i => hf (i + 1)
    rcases convert_reads v.args with ⟨os, h1, h2⟩ | ⟨h1, h2⟩
    · have hreq : requestCommand (.bulk v.name :: os) = newCommand v.name os := rfl
      cases hn : newCommand v.name os with
      | error e =>
        have hskip : ¬ ∃ c, AsksFor v c := by
          rintro ⟨c, os', g1, g2⟩
          cases readTexts_unique h2 g1
          rw [means_command g2] at hreq
          rw [← hreq] at hn
          cases hn
        have e : buildFromLog dbs envs (v :: vs) = buildFromLog dbs (fun i => envs (i + 1)) vs := by
          simp only [buildFromLog, h1, bind, Outcome.bind, hn]
        rw [e]
        rcases ih h0 hf' with ⟨dbs', s', g1, g2, g3⟩ | ⟨g1, before, v', after, s', rfl, g2, g3⟩
        · exact .inl ⟨dbs', s', g1, .skip hskip g2, g3⟩
        · exact .inr ⟨g1, v :: before, v', after, s', rfl, .skip hskip g2, g3⟩
      | ok c =>
        have hask : AsksFor v c := ⟨os, h2, command_means (hreq.trans hn)⟩
        obtain ⟨out, hs, hm⟩ := exec_refines (h0 v.index) (hf 0) (requestCommand_valid (hreq.trans hn))
        cases hx : execute (envs 0) (dbs v.index) c with
        | diverge => rw [hx] at hm; cases out <;> exact hm.elim
        | panic =>
          rw [hx] at hm
          cases out with
          | some y => exact hm.elim
          | none =>
            refine .inr ⟨?_, [], v, vs, s, rfl, .nil, .inr ⟨c, hask, hs⟩⟩
            simp only [buildFromLog, h1, bind, Outcome.bind, hn, DBs.run, hx]
        | ok y =>
          obtain ⟨st', x⟩ := y
          rw [hx] at hm
          cases out with
          | none => exact hm.elim
          | some z =>
            obtain ⟨a', x'⟩ := z
            obtain ⟨rfl, ha⟩ := hm
            have e : buildFromLog dbs envs (v :: vs) = buildFromLog (fun j => if j = v.index then st' else dbs j) (fun i => envs (i + 1)) vs := by
              simp only [buildFromLog, h1, bind, Outcome.bind, hn, DBs.run, hx]
            rw [e]
            have h0' : ∀ i, Abs ((fun j => if j = v.index then st' else dbs j) i) (Function.update s v.index a' i) := fun i => by
              by_cases hi : i = v.index
              · subst hi; simpa using ha
              · simpa [hi] using h0 i
            rcases ih h0' hf' with ⟨dbs', s', g1, g2, g3⟩ | ⟨g1, before, v', after, s', rfl, g2, g3⟩
            · exact .inl ⟨dbs', s', g1, .run hask hs g2, g3⟩
            · exact .inr ⟨g1, v :: before, v', after, s', rfl, .run hask hs g2, g3⟩
    · exact .inr ⟨by simp only [buildFromLog, h1, bind, Outcome.bind], [], v, vs, s, rfl, .nil, .inl h2⟩

/-- C109: so with any file: what the next server holds comes from the records that can be read, also if the file ends with a part of one. -/
theorem C109_file {envs : Nat → Env} (hf : ∀ i, (envs i).ord.Fair) {f : Bytes} {dbs : DBs} (h : fromFile noDBs envs f = .ok dbs) :
    ∃ s, Replays (fun _ => DB.empty) (parseLog f).1 s ∧ ∀ i, Abs (dbs i) (s i) := by
  rcases C109_replay (dbs := noDBs) (s := fun _ => DB.empty) (fun _ => abs_empty) hf (parseLog f).1 with ⟨dbs', s', g1, g2, g3⟩ | ⟨g1, -⟩
  · rw [fromFile, g1] at h
    cases h
    exact ⟨s', g2, g3⟩
  · rw [fromFile, g1] at h
    cases h

/-- Three records: a SET in database 1, something that is no command, and a SET in database 2 with an argument before the others that cannot be read. -/
def strange : List VLog :=
  [{ id := b!"a", time := 1, host := b!"h", name := b!"set", index := 1, args := [b!"$1\r\nk\r\n", b!"$1\r\n1\r\n"], raw := [] },
   { id := b!"b", time := 2, host := b!"h", name := b!"nosuch", index := 1, args := [b!"$1\r\nk\r\n"], raw := [] },
   { id := b!"c", time := 3, host := b!"h", name := b!"SET", index := 2, args := [b!"?", b!"+k\r\nrest", b!"$1\r\n2\r\n"], raw := [] }]

/-- They are replayed, and end in two databases. -/
example : ∃ dbs st1 st2, buildFromLog noDBs (fun _ => env0) strange = .ok dbs ∧ handle env0 (dbs 1) (req [b!"get", b!"k"]) = .ok (st1, .bulk b!"1") ∧
    handle env0 (dbs 2) (req [b!"get", b!"k"]) = .ok (st2, .bulk b!"2") := ⟨_, _, _, rfl, rfl, rfl⟩

end Verif.Props
