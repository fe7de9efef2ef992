import Verif.Lemmas.Request

/-! A reachable database with something of every type, used to show that the hypotheses of the property theorems can be met. -/

namespace Verif

open Spec

/-- A request whose words are all bulk strings. -/
def req (ws : List Bytes) : List Resp := ws.map .bulk

/-- Surroundings in which maps are iterated in stored order. -/
def env0 : Env := { ord := fun _ l => l, addr := fun _ => 824634482688, table := fun _ => true }

theorem env0_fair : env0.ord.Fair := fun _ _ => .refl _

theorem forall₂_bulk (ws : List Bytes) : List.Forall₂ IsText (ws.map .bulk) ws := by
  induction ws with
  | nil => exact .nil
  | cons w ws ih => exact .cons (.bulk w) ih

theorem request_req {name n : Bytes} (args : List Bytes) (h : toLower n = name := by decide) (ha : ∀ c ∈ name, c.toNat < 128 := by decide) :
    Request (req (n :: args)) name args :=
  ⟨args.map .bulk, ⟨.bulk n, n, rfl, .bulk n, (folds_iff ha).1 h⟩, forall₂_bulk args⟩

/-- Several keys of each type. -/
def sampleDB : DB :=
  (((((((DB.empty.setStr b!"n" b!"41").setStr b!"t" b!"hello").setList b!"l" [b!"a", b!"b", b!"a", b!"c"]).setHash b!"h"
    ((((∅ : Hash).insert b!"f" b!"v").insert b!"g" b!"w"))).setSet b!"s" {b!"x", b!"y", b!"z"}).setSet b!"u" {b!"y"}).setSet b!"o" ∅)

theorem sample_grow {st : State} {a a' : DB} {ws : List Bytes} {c : Command} (h : Reachable st ∧ Abs st a) (hm : Means (req ws) c)
    (hs : ∀ out, Step a c out → ∃ r, out = done a' r) : ∃ st', Reachable st' ∧ Abs st' a' := by
  obtain ⟨out, h1, h2⟩ := handle_refines h.2 env0_fair hm
  obtain ⟨r, rfl⟩ := hs _ h1
  obtain ⟨st', hh, ha⟩ := h2
  exact ⟨st', reachable_step h.1 env0_fair hh, ha⟩

theorem sample_reachable : ∃ st, Reachable st ∧ Abs st sampleDB := by
  obtain ⟨s1, h1⟩ := sample_grow (ws := [b!"SET", b!"n", b!"41"]) (c := .set b!"n" b!"41") ⟨reachable_empty, abs_empty⟩
    (request_req _) (fun out h => ⟨_, h⟩)
  obtain ⟨s2, h2⟩ := sample_grow (ws := [b!"Set", b!"t", b!"hello"]) (c := .set b!"t" b!"hello") h1
    (request_req _) (fun out h => ⟨_, h⟩)
  obtain ⟨s3, h3⟩ := sample_grow (ws := [b!"rpush", b!"l", b!"a", b!"b", b!"a", b!"c"]) (c := .rpush b!"l" [b!"a", b!"b", b!"a", b!"c"])
    h2 ⟨by decide, request_req _⟩ (fun out h => ⟨_, h⟩)
  obtain ⟨s4, h4⟩ := sample_grow (ws := [b!"hset", b!"h", b!"f", b!"v", b!"g", b!"w"]) (c := .hset b!"h" [b!"f", b!"g"] [b!"v", b!"w"])
    h3 ⟨rfl, request_req _⟩ (fun out h => ⟨_, h⟩)
  obtain ⟨s5, h5⟩ := sample_grow (ws := [b!"sadd", b!"s", b!"x", b!"y", b!"z"]) (c := .sadd b!"s" [b!"x", b!"y", b!"z"])
    h4 ⟨by decide, request_req _⟩ (fun out h => ⟨_, h⟩)
  obtain ⟨s6, h6⟩ := sample_grow (ws := [b!"sadd", b!"u", b!"y"]) (c := .sadd b!"u" [b!"y"])
    h5 ⟨by decide, request_req _⟩ (fun out h => ⟨_, h⟩)
  obtain ⟨s7, h7⟩ := sample_grow (ws := [b!"srem", b!"o", b!"y"]) (c := .srem b!"o" [b!"y"])
    h6 ⟨by decide, request_req _⟩ (fun out h => ⟨_, h⟩)
  exact ⟨s7, h7⟩

end Verif
