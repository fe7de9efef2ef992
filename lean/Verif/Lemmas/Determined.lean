import Verif.Lemmas.Request
import Verif.Lemmas.Decimal

/-! Which commands leave the abstract machine no choice. -/

namespace Verif

open Spec

/-- Commands whose effect and reply do not depend on an iteration order. -/
def Determined : Command → Prop
  | .hkeys .. | .hvals .. | .hgetall .. | .smembers .. | .srandmember .. | .spop .. | .sdiff .. | .sinter .. | .sunion .. => False
  | _ => True

/-- Equal outcomes, up to the text of internal errors. -/
def SameOut : Out → Out → Prop
  | none, none => True
  | some (a, .ok r), some (b, .ok s) => a = b ∧ r = s
  | some (a, .error e), some (b, .error f) => a = b ∧ (e = f ∨ ∃ m n, e = .internal m ∧ f = .internal n)
  | _, _ => False

theorem SameOut.refl (o : Out) : SameOut o o := by
  rcases o with _ | ⟨a, e | r⟩
  · trivial
  · exact ⟨rfl, .inl rfl⟩
  · exact ⟨rfl, rfl⟩

theorem SameOut.of_eq {o o₁ o₂ : Out} (h₁ : o₁ = o) (h₂ : o₂ = o) : SameOut o₁ o₂ := by subst h₁; subst h₂; exact .refl _

theorem SameOut.internal {a : DB} {o₁ o₂ : Out} (h₁ : ∃ m, o₁ = fails a (.internal m)) (h₂ : ∃ m, o₂ = fails a (.internal m)) :
    SameOut o₁ o₂ := by
  obtain ⟨m, rfl⟩ := h₁; obtain ⟨n, rfl⟩ := h₂
  exact ⟨rfl, .inr ⟨m, n, rfl, rfl⟩⟩

theorem addStep_det {a : DB} {k arg : Bytes} {f : Int → Int → Int} {o₁ o₂ : Out} (h₁ : AddStep a k arg f o₁) (h₂ : AddStep a k arg f o₂) :
    SameOut o₁ o₂ := by
  rcases h₁ with ⟨old, v, d, r, s, g, hv, hd, hw, hs, rfl⟩ | ⟨n, h₁⟩ | ⟨n, g, rfl⟩ | ⟨n, ⟨old, g, hn⟩, rfl⟩ <;>
  rcases h₂ with ⟨old', v', d', r', s', g', hv', hd', hw', hs', rfl⟩ | ⟨n', h₂⟩ | ⟨n', g', rfl⟩ | ⟨n', ⟨old', g', hn'⟩, rfl⟩
  · rw [g] at g'; cases g'
    cases isInt_unique hv hv'
    cases isInt_unique hd hd'
    cases wraps_unique hw hw'
    cases decimal_unique hs hs'
    exact .refl _
  · exact absurd ⟨d, hd⟩ n'
  · rw [g] at g'; cases g'
  · rw [g] at g'; cases g'; exact absurd ⟨v, hv⟩ hn'
  · exact absurd ⟨d', hd'⟩ n
  · exact .internal h₁ h₂
  · exact absurd n' n
  · exact absurd n' n
  · rw [g] at g'; cases g'
  · exact absurd n n'
  · exact .refl _
  · rw [g] at g'; cases g'
  · rw [g] at g'; cases g'; exact absurd ⟨v', hv'⟩ hn
  · exact absurd n n'
  · rw [g] at g'; cases g'
  · exact .refl _

theorem firstAt_det {p : Bytes} {pre pre' post post' xs : List Bytes} (h₁ : FirstAt p pre post xs) (h₂ : FirstAt p pre' post' xs) :
    pre = pre' ∧ post = post' := by
  have key : ∀ {pre pre' : List Bytes}, p ∉ pre → p ∉ pre' → pre ++ p :: post = pre' ++ p :: post' → pre = pre' ∧ post = post' := by
    intro pre
    induction pre with
    | nil =>
      intro pre' _ h2 h
      cases pre' with
      | nil => simpa using h
      | cons y ys => simp at h; exact absurd h.1 (by rintro rfl; simp at h2)
    | cons x pre ih =>
      intro pre' h1 h2 h
      cases pre' with
      | nil => simp at h; exact absurd h.1 (by rintro rfl; simp at h1)
      | cons y ys =>
        simp at h h1 h2
        obtain ⟨rfl, h⟩ := h
        have := ih h1.2 h2.2 h
        simp [this]
  exact key h₁.2 h₂.2 (h₁.1.symm.trans h₂.1)

theorem window_det {l r : Int} {n i j i' j' : Nat} (h₁ : Window l r n i j) (h₂ : Window l r n i' j') : i = i' ∧ j = j' := by
  unfold Window Denotes at h₁ h₂; omega

theorem listWindow_det {l r : Int} {n i j i' j' : Nat} (h₁ : ListWindow l r n i j) (h₂ : ListWindow l r n i' j') : i = i' ∧ j = j' := by
  unfold ListWindow Window Denotes at h₁ h₂; split at h₁ <;> simp_all <;> omega

theorem step_det {a : DB} {c : Command} {o₁ o₂ : Out} (hc : Determined c) (h₁ : Step a c o₁) (h₂ : Step a c o₂) : SameOut o₁ o₂ := by
  cases c <;> simp only [Determined] at hc <;> simp only [Step] at h₁ h₂
  case set | get | mget | exist | strlen | append | llen | hmget | hlen | scard => exact .of_eq h₁ h₂
  case incr | decr => exact addStep_det h₁ h₂
  case mset =>
    split at h₁
    · rename_i e; rw [if_pos e] at h₂; exact .internal h₁ h₂
    · rename_i e; rw [if_neg e] at h₂; exact .of_eq h₁ h₂
  case lpush | rpush =>
    split at h₁
    · rename_i e; rw [if_pos e] at h₂; exact .internal h₁ h₂
    · rename_i e; rw [if_neg e] at h₂; exact .of_eq h₁ h₂
  case getrange k l r =>
    rcases h₁ with ⟨i, j, w1, h₁⟩ | ⟨n1, h₁⟩ <;> rcases h₂ with ⟨i', j', w2, h₂⟩ | ⟨n2, h₂⟩
    · obtain ⟨rfl, rfl⟩ := window_det w1 w2
      exact .of_eq h₁ h₂
    · exact absurd ⟨i, j, w1⟩ n2
    · exact absurd ⟨i', j', w2⟩ n1
    · exact .of_eq h₁ h₂
  case lpop k =>
    split at h₁
    · rename_i e; simp only [e] at h₂; exact .of_eq h₁ h₂
    · rename_i hn
      split at h₂
      · rename_i x xs e; exact absurd e (hn x xs)
      · exact .of_eq h₁ h₂
  case rpop k =>
    split at h₁
    · rename_i e; simp only [e] at h₂; exact .of_eq h₁ h₂
    · rename_i xs e
      simp only [e] at h₂
      rcases h₁ with ⟨e1, h₁⟩ | ⟨ys, y, e1, h₁⟩ <;> rcases h₂ with ⟨e2, h₂⟩ | ⟨ys', y', e2, h₂⟩
      · exact .of_eq h₁ h₂
      · rw [e1] at e2; simp at e2
      · rw [e1] at e2; simp at e2
      · have := e1.symm.trans e2
        have h3 := List.append_inj_left' this rfl
        have h4 := List.append_inj_right' this rfl
        cases h4; cases h3
        exact .of_eq h₁ h₂
  case lindex k i =>
    rcases h₁ with ⟨p, x, d1, g1, h₁⟩ | ⟨n1, h₁⟩ <;> rcases h₂ with ⟨p', x', d2, g2, h₂⟩ | ⟨n2, h₂⟩
    · have : p = p' := by unfold Denotes at d1 d2; omega
      subst this
      rw [g1] at g2; cases g2
      exact .of_eq h₁ h₂
    · exact absurd ⟨p, d1⟩ n2
    · exact absurd ⟨p', d2⟩ n1
    · exact .of_eq h₁ h₂
  case linsert k af p v =>
    split at h₁
    · rename_i e; simp only [e] at h₂; exact .of_eq h₁ h₂
    · rename_i xs e
      simp only [e] at h₂
      split at h₁
      · rename_i hp
        rw [if_pos hp] at h₂
        split at h₁
        · rename_i ha; rw [if_pos ha] at h₂; exact .of_eq h₁ h₂
        · rename_i ha; rw [if_neg ha] at h₂; exact .of_eq h₁ h₂
      · rename_i hp
        rw [if_neg hp] at h₂
        rcases h₁ with ⟨m1, h₁⟩ | ⟨pre, post, f1, h₁⟩ <;> rcases h₂ with ⟨m2, h₂⟩ | ⟨pre', post', f2, h₂⟩
        · exact .of_eq h₁ h₂
        · rw [f2.1] at m1; simp at m1
        · rw [f1.1] at m2; simp at m2
        · obtain ⟨rfl, rfl⟩ := firstAt_det f1 f2
          exact .of_eq h₁ h₂
  case lrange | ltrim =>
    rcases h₁ with ⟨i, j, w1, h₁⟩ | ⟨n1, h₁⟩ <;> rcases h₂ with ⟨i', j', w2, h₂⟩ | ⟨n2, h₂⟩
    · obtain ⟨rfl, rfl⟩ := listWindow_det w1 w2
      exact .of_eq h₁ h₂
    · exact absurd ⟨i, j, w1⟩ n2
    · exact absurd ⟨i', j', w2⟩ n1
    · exact .of_eq h₁ h₂
  case lrem k n v =>
    split at h₁
    · rename_i e; simp only [e] at h₂; exact .of_eq h₁ h₂
    · rename_i xs e
      simp only [e] at h₂
      split at h₁
      · rename_i hc'; rw [if_pos hc'] at h₂; exact .of_eq h₁ h₂
      · rename_i hc'; rw [if_neg hc'] at h₂; exact .of_eq h₁ h₂
  case lset k i v =>
    split at h₁
    · rename_i e; simp only [e] at h₂; exact .of_eq h₁ h₂
    · rename_i xs e
      simp only [e] at h₂
      rcases h₁ with ⟨p, d1, h₁⟩ | ⟨n1, h₁⟩ <;> rcases h₂ with ⟨p', d2, h₂⟩ | ⟨n2, h₂⟩
      · have : p = p' := by unfold Denotes at d1 d2; omega
        subst this
        exact .of_eq h₁ h₂
      · exact absurd ⟨p, d1⟩ n2
      · exact absurd ⟨p', d2⟩ n1
      · exact .of_eq h₁ h₂
  case hset k fs vs =>
    split at h₁
    · rename_i hk; rw [if_pos hk] at h₂; exact .of_eq h₁ h₂
    · rename_i hk; rw [if_neg hk] at h₂
      split at h₁
      · rename_i hf; rw [if_pos hf] at h₂; exact .of_eq h₁ h₂
      · rename_i hf; rw [if_neg hf] at h₂; exact .of_eq h₁ h₂
  case hget | hexists | hstrlen | sismember =>
    split at h₁
    · rename_i e; simp only [e] at h₂; exact .of_eq h₁ h₂
    · rename_i m e
      simp only [e] at h₂
      split at h₁
      · rename_i hf; rw [if_pos hf] at h₂; exact .of_eq h₁ h₂
      · rename_i hf; rw [if_neg hf] at h₂; exact .of_eq h₁ h₂
  case hdel =>
    split at h₁
    · rename_i e; simp only [e] at h₂; exact .of_eq h₁ h₂
    · rename_i m e
      simp only [e] at h₂
      exact .of_eq h₁ h₂
  case sadd | srem =>
    split at h₁
    · rename_i hk; rw [if_pos hk] at h₂; exact .of_eq h₁ h₂
    · rename_i hk; rw [if_neg hk] at h₂; exact .of_eq h₁ h₂

/-- A command that is not logged, other than LTRIM, leaves the database as it is. -/
theorem step_access {a a' : DB} {c : Command} {r : Except CmdErr Resp} (hv : Valid c) (hm : c.isModify = false)
    (hl : ∀ k l r, c ≠ .ltrim k l r) (h : Step a c (some (a', r))) : a' = a := by
  cases c <;> simp only [Command.isModify, reduceCtorEq] at hm <;> simp only [Step, done, fails] at h
  case get | mget | exist | strlen | llen | hmget | hlen | scard => cases h; rfl
  case getrange =>
    rcases h with ⟨i, j, _, h⟩ | ⟨_, h⟩ <;> cases h <;> rfl
  case lrange =>
    rcases h with ⟨i, j, _, h⟩ | ⟨_, h⟩ <;> cases h <;> rfl
  case lindex =>
    rcases h with ⟨p, x, _, _, h⟩ | ⟨_, h⟩ <;> cases h <;> rfl
  case ltrim k l r => exact absurd rfl (hl k l r)
  case hget | hexists | hstrlen | sismember =>
    split at h
    · cases h; rfl
    · split at h <;> cases h <;> rfl
  case hkeys | hvals | hgetall | smembers =>
    split at h
    · cases h; rfl
    · obtain ⟨ps, -, h⟩ := h; cases h; rfl
  case srandmember =>
    split at h
    · cases h; rfl
    · obtain ⟨ps, -, -, -, h⟩ := h
      split at h <;> cases h <;> rfl
  case sdiff | sinter | sunion => obtain ⟨ms, -, h⟩ := h; cases h; rfl

end Verif
