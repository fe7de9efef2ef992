import Verif.Model.Host
import Verif.Spec.DB

/-! Which address of the machine is its host name in the log. -/

namespace Verif.Spec

open Verif.Host

/-- `a` is the IPv4 address `w.x.y.z`, given by four bytes or in the form `::ffff:w.x.y.z`. -/
def Denotes4 (a : Addr) (w x y z : UInt8) : Prop :=
  ∃ ip, (a = .ipNet (some ip) ∨ a = .ipAddr (some ip)) ∧
    (ip = [w, x, y, z] ∨ ip = [0, 0, 0, 0, 0, 0, 0, 0, 0, 0, 255, 255, w, x, y, z])

/-- An IPv4 address outside 127.0.0.0/8. -/
def ExternalIP (a : Addr) (w x y z : UInt8) : Prop := Denotes4 a w x y z ∧ w ≠ 127

/-- `t` is the address in dotted decimal form. -/
def Dotted (t : Bytes) (w x y z : UInt8) : Prop :=
  ∃ a b c d, Decimal a w.toNat ∧ Decimal b x.toNat ∧ Decimal c y.toNat ∧ Decimal d z.toNat ∧
    t = a ++ b!"." ++ b ++ b!"." ++ c ++ b!"." ++ d

/-- The search passes the interface: it is down, a loopback, or has no external IPv4 address. -/
def Passed (i : Iface) : Prop :=
  i.up = false ∨ i.loopback = true ∨ ∃ as, i.addrs = some as ∧ ∀ a ∈ as, ∀ w x y z, ¬ ExternalIP a w x y z

/-- `w.x.y.z` is the first external IPv4 address of the first interface that is not passed. -/
def FirstExternalIP (is : List Iface) (w x y z : UInt8) : Prop :=
  ∃ pre i post, is = pre ++ i :: post ∧ (∀ j ∈ pre, Passed j) ∧ i.up = true ∧ i.loopback = false ∧
    ∃ as a bs, i.addrs = some (as ++ a :: bs) ∧ (∀ b ∈ as, ∀ w x y z, ¬ ExternalIP b w x y z) ∧ ExternalIP a w x y z

end Verif.Spec
