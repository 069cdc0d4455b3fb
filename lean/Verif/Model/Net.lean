import Verif.Py.Basic
/-!
# `cidr_match`

Model of `ttp/match/ip.py` 121-164 on address objects. The objects of the standard library's `ipaddress` (addresses,
interfaces, networks) are modelled by version, number and prefix length; reading them from text is not modelled.
-/

namespace TTP
namespace Net

/-- number of bits of an address, `ipaddress` `max_prefixlen` -/
def width (version : Nat) : Nat := if version = 4 then 32 else 128

/-- the netmask as a number, `ipaddress` `_ip_int_from_prefix`: `_ALL_ONES ^ (_ALL_ONES >> prefixlen)` -/
def mask (version plen : Nat) : Nat :=
  Nat.xor (2 ^ width version - 1) ((2 ^ width version - 1) >>> plen)

/-- An `IPv4Network` or `IPv6Network`: `network_address` and prefix length -/
structure Network where
  version : Nat
  addr : Nat
  plen : Nat
  deriving DecidableEq, Repr

/-- `broadcast_address`, `ipaddress` 'network_address | hostmask', hostmask = `netmask ^ _ALL_ONES` -/
def Network.broadcast (n : Network) : Nat :=
  Nat.lor n.addr (Nat.xor (mask n.version n.plen) (2 ^ width n.version - 1))

/-- `address in network`, `ipaddress._BaseNetwork.__contains__` -/
def Network.has (n : Network) (version x : Nat) : Bool :=
  if n.version ≠ version then false else Nat.land x (mask n.version n.plen) == n.addr

/-- `self.overlaps(other)`, `ipaddress._BaseNetwork.overlaps` -/
def Network.overlaps (s o : Network) : Bool :=
  s.has o.version o.addr || (s.has o.version o.broadcast || (o.has s.version s.addr || o.has s.version s.broadcast))

/-- What `data` is after `to_ip`: an address, an interface, or something else (then the check is `None`);
ttp/match/ip.py 125-132 -/
inductive Data where
  | addr (version x : Nat)
  | iface (version x plen : Nat)
  | other
  deriving DecidableEq, Repr

/-- `ip_interface.network`: network of the address without host bits -/
def ifaceNet (version x plen : Nat) : Network := ⟨version, Nat.land x (mask version plen), plen⟩

/-- `cidr_match`, ttp/match/ip.py 133-164: the flag; a single address becomes an interface with a full mask -/
def cidrMatch (data : Data) (net : Network) : Option Bool :=
  match data with
  | .iface v x p => some ((ifaceNet v x p).overlaps net)
  | .addr v x => some ((ifaceNet v x (width v)).overlaps net)
  | .other => none

end Net
end TTP
