import Verif.Model.Num

/-!
pkg/util/util.go:10-47 and 84-88: the address written into every log record as its host (pkg/log/log.go:34), found once when the process
starts. What the operating system tells about the network interfaces is a parameter.
-/

namespace Verif.Host

/-- An element of the slice returned by `iface.Addrs()` (pkg/util/util.go:31-37): an `IPNet` or an `IPAddr` with its `IP`, a byte slice
that may be nil, or a `net.Addr` of another type. -/
inductive Addr where
  | ipNet (ip : Option Bytes)
  | ipAddr (ip : Option Bytes)
  | other

/-- What pkg/util/util.go:17-27 looks at in a `net.Interface`: the two flags, and the addresses or that asking for them fails. -/
structure Iface where
  up : Bool
  loopback : Bool
  addrs : Option (List Addr)

/-- `To4` of a `net.IP` (Go standard library), used at pkg/util/util.go:41 and by `IsLoopback`: four bytes are an IPv4 address, sixteen are
one if they begin with ten zeros and two bytes 255. -/
def to4 (ip : Bytes) : Option Bytes :=
  if ip.length = 4 then some ip
  else if ip.length = 16 ∧ ip.take 10 = List.replicate 10 0 ∧ (ip.drop 10).take 2 = [255, 255] then some (ip.drop 12)
  else none

/-- `IsLoopback` of a `net.IP` (Go standard library), used at pkg/util/util.go:38. -/
def isLoopback (ip : Bytes) : Bool :=
  match to4 ip with
  | some ip4 => ip4.head? == some 127
  | none => ip == List.replicate 15 0 ++ [1]

/-- `String` of an IPv4 address (Go standard library), used at pkg/util/util.go:45. -/
def dotted (ip4 : Bytes) : Bytes := b!".".intercalate (ip4.map fun b => fmtNat b.toNat)

/-- The `switch` of pkg/util/util.go:31-37. -/
def Addr.ip : Addr → Option Bytes
  | .ipNet ip => ip
  | .ipAddr ip => ip
  | .other => none

/-- The loop of pkg/util/util.go:29-46 over the addresses of an interface: the text stored in `localAddr`, if any. -/
def scanAddrs : List Addr → Option Bytes
  | [] => none
  | a :: as =>
    match a.ip with
    | none => scanAddrs as
    | some ip =>
      if isLoopback ip then scanAddrs as
      else
        match to4 ip with
        | none => scanAddrs as
        | some ip4 => some (dotted ip4)

/-- pkg/util/util.go:10, the initial value of `localAddr`. -/
def unknown : Bytes := b!"unknown"

/-- The loop of pkg/util/util.go:16-46 over the interfaces. -/
def scan : List Iface → Bytes
  | [] => unknown
  | i :: is =>
    if i.up = false then scan is
    else if i.loopback then scan is
    else
      match i.addrs with
      | none => unknown
      | some as =>
        match scanAddrs as with
        | some t => t
        | none => scan is

/-- pkg/util/util.go:86-88 `GetIP`, after `init` (lines 12-47); `none` means that `net.Interfaces()` failed. -/
def getIP : Option (List Iface) → Bytes
  | none => unknown
  | some is => scan is

end Verif.Host
