import Verif.Model.Net
import Verif.Py.Str
/-!
# Reading of addresses

Model of `to_ip` and `to_net` of ttp/match/ip.py 7-48 on texts, with the part of the standard library's `ipaddress` they use: version 4 is
modelled in full, addresses of version 6 are a parameter `ip6` (the number of an address text, `none` if it is none).
-/

namespace TTP
open Py

namespace Ip

/-- `_parse_octet` of `ipaddress.IPv4Address` -/
def octet? (s : Str) : Option Nat :=
  if s = [] ∨ !s.all isDigit ∨ 3 < s.length ∨ (s ≠ ['0'] ∧ s.head? = some '0') ∨ 255 < natOfDigits s then none
  else some (natOfDigits s)

/-- `_ip_int_from_string` of `ipaddress.IPv4Address` -/
def v4? (s : Str) : Option Nat :=
  match splitC '.' s with
  | [a, b, c, d] => do
    let a ← octet? a
    let b ← octet? b
    let c ← octet? c
    let d ← octet? d
    pure (((a * 256 + b) * 256 + c) * 256 + d)
  | _ => none

/-- `_prefix_from_prefix_string` of `ipaddress` -/
def prefix? (max : Nat) (s : Str) : Option Nat :=
  if s = [] ∨ !s.all isDigit ∨ max < natOfDigits s then none else some (natOfDigits s)

/-- `_count_righthand_zero_bits` of `ipaddress` -/
def zeroBits : Nat → Nat → Nat
  | 0, _ => 0
  | bits + 1, n => if n % 2 = 1 then 0 else zeroBits bits (n / 2) + 1

/-- `_prefix_from_ip_int` of `ipaddress` for version 4 -/
def ofInt (n : Nat) : Option Nat :=
  let p := 32 - zeroBits 32 n
  if n / 2 ^ (32 - p) = 2 ^ p - 1 then some p else none

/-- `_prefix_from_ip_string` of `ipaddress.IPv4Network`: a netmask, or a host mask -/
def maskText? (s : Str) : Option Nat := do
  let n ← v4? s
  (ofInt n).or (ofInt (2 ^ 32 - 1 - n))

/-- `_make_netmask` of `ipaddress`, version 4 -/
def mask4? (s : Str) : Option Nat := (prefix? 32 s).or (maskText? s)

/-- `IPv4Interface(text)`: number and prefix length -/
def iface4? (s : Str) : Option (Nat × Nat) :=
  match splitC '/' s with
  | [a] => do pure (← v4? a, 32)
  | [a, m] => do
    let x ← v4? a
    pure (x, ← mask4? m)
  | _ => none

/-- `IPv6Interface(text)` -/
def iface6? (ip6 : Str → Option Nat) (s : Str) : Option (Nat × Nat) :=
  match splitC '/' s with
  | [a] => do pure (← ip6 a, 128)
  | [a, m] => do
    let x ← ip6 a
    pure (x, ← prefix? 128 m)
  | _ => none

/-- an interface as data of `cidr_match` -/
def ifaceData (v : Nat) (p : Nat × Nat) : Net.Data := .iface v p.1 p.2

/-- `to_ip` of a text, ttp/match/ip.py 13-26: `none` for `ValueError`. `kinds` are the texts among the arguments. -/
def toIp (ip6 : Str → Option Nat) (kinds : List Str) (s : Str) : Option Net.Data :=
  let t := s.map (fun c => if c = ' ' then '/' else c)
  if c!"ipv4" ∈ kinds then
    if '/' ∈ s ∨ ' ' ∈ s then (iface4? t).map (ifaceData 4) else (v4? s).map (.addr 4)
  else if c!"ipv6" ∈ kinds then
    if '/' ∈ s then (iface6? ip6 s).map (ifaceData 6) else (ip6 s).map (.addr 6)
  else if '/' ∈ s ∨ ' ' ∈ s then ((iface4? t).map (ifaceData 4)).or ((iface6? ip6 t).map (ifaceData 6))
  else ((v4? s).map (Net.Data.addr 4)).or ((ip6 s).map (.addr 6))

/-- a network without host bits -/
def strictNet (v : Nat) (p : Nat × Nat) : Option Net.Network :=
  if Nat.land p.1 (Net.mask v p.2) = p.1 then some ⟨v, p.1, p.2⟩ else none

/-- `ip_network(text)`, ttp/match/ip.py 47-48: `none` for `ValueError` -/
def toNet (ip6 : Str → Option Nat) (s : Str) : Option Net.Network :=
  match iface4? s with
  | some p => strictNet 4 p
  | none => (iface6? ip6 s).bind (strictNet 6)

/-- `str(IPv4Address)`: the four bytes, highest first, `_string_from_ip_int` of `ipaddress` -/
def text4 (x : Nat) : Str :=
  join ['.'] [natStr ((x >>> 24) % 256), natStr ((x >>> 16) % 256), natStr ((x >>> 8) % 256), natStr (x % 256)]

/-- the blocks of `_IPv4Constants` of `ipaddress`: link local, loopback, multicast, reserved -/
def linkLocal : Net.Network := ⟨4, 0xA9FE0000, 16⟩
@[inherit_doc linkLocal] def loopback : Net.Network := ⟨4, 0x7F000000, 8⟩
@[inherit_doc linkLocal] def multicast : Net.Network := ⟨4, 0xE0000000, 4⟩
@[inherit_doc linkLocal] def reserved : Net.Network := ⟨4, 0xF0000000, 4⟩

/-- the hostmask as a number, `ipaddress` `int(netmask) ^ _ALL_ONES` -/
def hostmask4 (p : Nat) : Nat := Nat.xor (Net.mask 4 p) (2 ^ 32 - 1)

/-- what `ip_info` tells of an address or interface of version 4, ttp/match/ip.py 77-87, 104-114: the flags of the address -/
def flags4 (priv : Nat → Bool) (x : Nat) : Dict Key Val := [
  (.s c!"is_link_local", .bool (linkLocal.has 4 x)), (.s c!"is_loopback", .bool (loopback.has 4 x)),
  (.s c!"is_multicast", .bool (multicast.has 4 x)), (.s c!"is_private", .bool (priv x)),
  (.s c!"is_reserved", .bool (reserved.has 4 x)), (.s c!"is_unspecified", .bool (x == 0)),
  (.s c!"max_prefixlen", .int 32)]

/-- `ip_info` of an address of version 4, ttp/match/ip.py 99-115 -/
def infoAddr4 (priv : Nat → Bool) (x : Nat) : Dict Key Val :=
  [(.s c!"ip", .str (text4 x)), (.s c!"compressed", .str (text4 x)), (.s c!"exploded", .str (text4 x))] ++ flags4 priv x ++
    [(.s c!"version", .int 4)]

/-- `ip_info` of an interface of version 4, ttp/match/ip.py 72-96 -/
def infoIface4 (priv : Nat → Bool) (x p : Nat) : Dict Key Val :=
  let net := Net.ifaceNet 4 x p
  let slash := text4 x ++ '/' :: natStr p
  let num := net.broadcast - net.addr + 1
  [(.s c!"compressed", .str slash), (.s c!"exploded", .str slash), (.s c!"hostmask", .str (text4 (hostmask4 p))),
    (.s c!"ip", .str (text4 x))] ++ flags4 priv x ++
    [(.s c!"netmask", .str (text4 (Net.mask 4 p))), (.s c!"network", .str (text4 net.addr ++ '/' :: natStr p)),
    (.s c!"version", .int 4), (.s c!"with_hostmask", .str (text4 x ++ '/' :: text4 (hostmask4 p))),
    (.s c!"with_netmask", .str (text4 x ++ '/' :: text4 (Net.mask 4 p))), (.s c!"with_prefixlen", .str slash),
    (.s c!"broadcast_address", .str (text4 net.broadcast)), (.s c!"network_address", .str (text4 net.addr)),
    (.s c!"num_addresses", .int num), (.s c!"hosts", .int ((num : Int) - 2)), (.s c!"prefixlen", .int p)]

/-- `ip_info` of an address object, ttp/match/ip.py 72-118: what is told of version 6 is the parameter `info6` -/
def info (priv : Nat → Bool) (info6 : Net.Data → Val) : Net.Data → Val
  | .addr v x => if v = 4 then .dict (infoAddr4 priv x) else info6 (.addr v x)
  | .iface v x p => if v = 4 then .dict (infoIface4 priv x p) else info6 (.iface v x p)
  | .other => info6 .other

end Ip
end TTP
