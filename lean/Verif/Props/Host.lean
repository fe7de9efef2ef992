import Verif.Spec.Host
import Verif.Lemmas.Refine

/-! # C76 – the host recorded in the log -/

namespace Verif.Props

open Verif Spec Host

theorem dotted_spec (w x y z : UInt8) : Dotted (dotted [w, x, y, z]) w x y z := by
  have h : ∀ b : UInt8, Decimal (fmtNat b.toNat) b.toNat := fun b => decimal_fmtInt (b.toNat : Int)
  exact ⟨_, _, _, _, h w, h x, h y, h z, by simp [dotted, List.intercalate, List.intersperse]⟩

theorem to4_some {ip ip4 : Bytes} (h : to4 ip = some ip4) :
    ∃ w x y z, ip4 = [w, x, y, z] ∧ (ip = [w, x, y, z] ∨ ip = [0, 0, 0, 0, 0, 0, 0, 0, 0, 0, 255, 255, w, x, y, z]) := by
  unfold to4 at h
  split at h
  · rename_i hl
    obtain rfl := Option.some.inj h
    match ip, hl with
    | [w, x, y, z], _ => exact ⟨w, x, y, z, rfl, .inl rfl⟩
  · split at h
    · rename_i hl
      obtain ⟨h1, h2, h3⟩ := hl
      obtain rfl := Option.some.inj h
      match ip, h1 with
      | [a0, a1, a2, a3, a4, a5, a6, a7, a8, a9, a10, a11, w, x, y, z], _ =>
        simp [List.replicate] at h2 h3
        obtain ⟨rfl, rfl, rfl, rfl, rfl, rfl, rfl, rfl, rfl, rfl⟩ := h2
        obtain ⟨rfl, rfl⟩ := h3
        exact ⟨w, x, y, z, rfl, .inr rfl⟩
    · simp at h

theorem to4_denotes {a : Addr} {w x y z : UInt8} (h : Denotes4 a w x y z) : ∃ ip, a.ip = some ip ∧ to4 ip = some [w, x, y, z] := by
  obtain ⟨ip, h1, h2⟩ := h
  refine ⟨ip, by rcases h1 with rfl | rfl <;> rfl, ?_⟩
  rcases h2 with rfl | rfl
  · rfl
  · rfl

theorem scanAddrs_found {as bs : List Addr} {a : Addr} {w x y z : UInt8} (hp : ∀ b ∈ as, ∀ w x y z, ¬ ExternalIP b w x y z)
    (h : ExternalIP a w x y z) : scanAddrs (as ++ a :: bs) = some (dotted [w, x, y, z]) := by
  induction as with
  | nil =>
    obtain ⟨ip, h1, h2⟩ := to4_denotes h.1
    have hl : isLoopback ip = false := by simp [isLoopback, h2, h.2]
    simp [scanAddrs, h1, hl, h2]
  | cons b as ih =>
    have ih := ih fun c hc => hp c (by simp [hc])
    have hb := hp b (by simp)
    simp only [List.cons_append, scanAddrs]
    cases hi : b.ip with
    | none => exact ih
    | some ip =>
      simp only
      split
      · exact ih
      · rename_i hl
        cases h4 : to4 ip with
        | none => exact ih
        | some ip4 =>
          exfalso
          obtain ⟨w', x', y', z', rfl, he⟩ := to4_some h4
          refine hb w' x' y' z' ⟨⟨ip, ?_, he⟩, ?_⟩
          · cases b with
            | ipNet j => left; simp only [Addr.ip] at hi; rw [hi]
            | ipAddr j => right; simp only [Addr.ip] at hi; rw [hi]
            | other => simp [Addr.ip] at hi
          · rintro rfl
            simp [isLoopback, h4] at hl

theorem scanAddrs_none {as : List Addr} (hp : ∀ b ∈ as, ∀ w x y z, ¬ ExternalIP b w x y z) : scanAddrs as = none := by
  induction as with
  | nil => rfl
  | cons b as ih =>
    have ih := ih fun c hc => hp c (by simp [hc])
    have hb := hp b (by simp)
    simp only [scanAddrs]
    cases hi : b.ip with
    | none => exact ih
    | some ip =>
      simp only
      split
      · exact ih
      · rename_i hl
        cases h4 : to4 ip with
        | none => exact ih
        | some ip4 =>
          exfalso
          obtain ⟨w', x', y', z', rfl, he⟩ := to4_some h4
          refine hb w' x' y' z' ⟨⟨ip, ?_, he⟩, ?_⟩
          · cases b with
            | ipNet j => left; simp only [Addr.ip] at hi; rw [hi]
            | ipAddr j => right; simp only [Addr.ip] at hi; rw [hi]
            | other => simp [Addr.ip] at hi
          · rintro rfl
            simp [isLoopback, h4] at hl

theorem first_external (as : List Addr) : (∀ b ∈ as, ∀ w x y z, ¬ ExternalIP b w x y z) ∨
    ∃ pre a post w x y z, as = pre ++ a :: post ∧ (∀ b ∈ pre, ∀ w x y z, ¬ ExternalIP b w x y z) ∧ ExternalIP a w x y z := by
  induction as with
  | nil => exact .inl (by simp)
  | cons b as ih =>
    by_cases hb : ∃ w x y z, ExternalIP b w x y z
    · obtain ⟨w, x, y, z, h⟩ := hb
      exact .inr ⟨[], b, as, w, x, y, z, rfl, by simp, h⟩
    · simp only [not_exists] at hb
      rcases ih with ih | ⟨pre, a, post, w, x, y, z, rfl, h1, h2⟩
      · exact .inl (by
          intro c hc
          rcases List.mem_cons.1 hc with rfl | hc
          · exact hb
          · exact ih c hc)
      · refine .inr ⟨b :: pre, a, post, w, x, y, z, rfl, ?_, h2⟩
        intro c hc
        rcases List.mem_cons.1 hc with rfl | hc
        · exact hb
        · exact h1 c hc

theorem scan_passed {i : Iface} {is : List Iface} (h : Passed i) : scan (i :: is) = scan is := by
  rw [scan]
  rcases h with h | h | ⟨as, h1, h2⟩
  · rw [if_pos h]
  · rw [if_pos h]; split <;> rfl
  · rw [h1]
    simp only [scanAddrs_none h2]
    split
    · rfl
    · split <;> rfl

theorem scan_append {pre is : List Iface} (h : ∀ j ∈ pre, Passed j) : scan (pre ++ is) = scan is := by
  induction pre with
  | nil => rfl
  | cons i pre ih =>
    rw [List.cons_append, scan_passed (h i (by simp)), ih fun j hj => h j (by simp [hj])]

/-- C76 (found): the host is the first IPv4 address outside 127.0.0.0/8 of the first interface that is up, no loopback and has one, in
dotted decimal form. -/
theorem C76_found {is : List Iface} {w x y z : UInt8} (h : FirstExternalIP is w x y z) : Dotted (getIP (some is)) w x y z := by
  obtain ⟨pre, i, post, rfl, h1, h2, h3, as, a, bs, h4, h5, h6⟩ := h
  have : getIP (some (pre ++ i :: post)) = dotted [w, x, y, z] := by
    show scan _ = _
    rw [scan_append h1]
    unfold scan
    rw [if_neg (by simp [h2]), if_neg (by simp [h3]), h4]
    simp only [scanAddrs_found h5 h6]
  rw [this]
  exact dotted_spec w x y z

/-- C76 (otherwise): when there is no such address, or the interfaces cannot be listed, the host is "unknown". -/
theorem C76_unknown :
    getIP none = b!"unknown" ∧ ∀ is, (¬ ∃ w x y z, FirstExternalIP is w x y z) → getIP (some is) = b!"unknown" := by
  refine ⟨rfl, fun is => ?_⟩
  show _ → scan is = _
  induction is with
  | nil => intro _; rfl
  | cons i is ih =>
    intro h
    by_cases hp : Passed i
    · rw [scan_passed hp]
      refine ih fun ⟨w, x, y, z, pre, j, post, h1, h2, h3⟩ => h ⟨w, x, y, z, i :: pre, j, post, by rw [h1]; rfl, ?_, h3⟩
      intro c hc
      rcases List.mem_cons.1 hc with rfl | hc
      · exact hp
      · exact h2 c hc
    · unfold scan
      have hu : i.up = true := by
        by_contra hc
        exact hp (.inl (by simpa using hc))
      have hl : i.loopback = false := by
        by_contra hc
        exact hp (.inr (.inl (by simpa using hc)))
      rw [if_neg (by simp [hu]), if_neg (by simp [hl])]
      cases ha : i.addrs with
      | none => rfl
      | some as =>
        exfalso
        rcases first_external as with he | ⟨pre, a, post, w, x, y, z, rfl, h1, h2⟩
        · exact hp (.inr (.inr ⟨as, ha, he⟩))
        · exact h ⟨w, x, y, z, [], i, is, rfl, by simp, hu, hl, pre, a, post, ha, h1, h2⟩

/-- C76 (a failure hides the rest): an interface that is up and no loopback but whose addresses cannot be read ends the search, although
later interfaces have addresses. -/
theorem C76_hidden {pre post : List Iface} {i : Iface} (h : ∀ j ∈ pre, Passed j) (hu : i.up = true) (hl : i.loopback = false)
    (ha : i.addrs = none) : getIP (some (pre ++ i :: post)) = b!"unknown" := by
  show scan _ = _
  rw [scan_append h]
  unfold scan
  rw [if_neg (by simp [hu]), if_neg (by simp [hl]), ha]
  rfl

/-- The hypotheses can be met: a loopback, an interface that is down, one with an IPv6 address and 10.0.0.7 in its IPv6 form. -/
example : FirstExternalIP
    [⟨true, true, some [.ipNet (some [127, 0, 0, 1])]⟩, ⟨false, false, none⟩,
      ⟨true, false, some [.ipNet (some [32, 1, 13, 184, 0, 0, 0, 0, 0, 0, 0, 0, 0, 0, 0, 1]), .other,
        .ipNet (some [0, 0, 0, 0, 0, 0, 0, 0, 0, 0, 255, 255, 10, 0, 0, 7])]⟩] 10 0 0 7 ∧
    getIP (some [⟨true, true, some [.ipNet (some [127, 0, 0, 1])]⟩, ⟨false, false, none⟩,
      ⟨true, false, some [.ipNet (some [32, 1, 13, 184, 0, 0, 0, 0, 0, 0, 0, 0, 0, 0, 0, 1]), .other,
        .ipNet (some [0, 0, 0, 0, 0, 0, 0, 0, 0, 0, 255, 255, 10, 0, 0, 7])]⟩]) = b!"10.0.0.7" ∧
    getIP (some [⟨true, false, none⟩, ⟨true, false, some [.ipNet (some [10, 0, 0, 7])]⟩]) = b!"unknown" := by
  refine ⟨⟨[_, _], _, [], rfl, ?_, rfl, rfl, [_, _], _, [], rfl, ?_, ⟨_, .inl rfl, .inr rfl⟩, by decide⟩, by decide, by decide⟩
  · intro j hj
    simp only [List.mem_cons, List.not_mem_nil, or_false] at hj
    rcases hj with rfl | rfl
    · exact .inr (.inl rfl)
    · exact .inl rfl
  · intro b hb w x y z
    simp only [List.mem_cons, List.not_mem_nil, or_false] at hb
    rcases hb with rfl | rfl <;> rintro ⟨⟨ip, h1, h2⟩, -⟩ <;> simp at h1
    subst h1; simp at h2

end Verif.Props
