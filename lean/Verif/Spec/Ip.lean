import Verif.Spec.Match
/-!
# Address texts

What a text has to be to be an address of version 4, with or without a mask, and what blocks of addresses texts stand for. Written
without the functions of the model; addresses of version 6 are given by a function from texts to numbers.
-/

namespace Spec
open Py

/-- `s` is the number `x`, written as four decimal numbers with dots between them -/
def V4 (s : Str) (x : Nat) : Prop := x < 2 ^ 32 ∧ s = dotted (octets x)

/-- `s` consists of decimal digits (leading zeros are allowed), of value `p` -/
def DigitsOf (s : Str) (p : Nat) : Prop := s ≠ [] ∧ s.all isDigit = true ∧ natOfDigits s = p

/-- `m` is a mask of `p` bits: the number `p`, the netmask, or (if that is no netmask as well) the host mask -/
def V4Mask (m : Str) (p : Nat) : Prop :=
  p ≤ 32 ∧ (DigitsOf m p ∨ V4 m (netmask p) ∨ (0 < p ∧ p < 32 ∧ V4 m (2 ^ (32 - p) - 1)))

/-- `s` is an address and a mask with a slash or a space between them -/
def V4With (seps : List Char) (s : Str) (x p : Nat) : Prop := ∃ a m, ∃ c ∈ seps, s = a ++ c :: m ∧ V4 a x ∧ V4Mask m p

/-- `s` is an address of version 6 and a prefix length with one of `seps` between them -/
def V6With (ip6 : Str → Option Nat) (seps : List Char) (s : Str) (x p : Nat) : Prop :=
  ∃ a m, ∃ c ∈ seps, s = a ++ c :: m ∧ (∀ d ∈ seps, d ∉ a) ∧ ip6 a = some x ∧ DigitsOf m p ∧ p ≤ 128

/-- what is assumed of the reading of addresses of version 6: 128 bits; texts of version 4 are none -/
structure Reads6 (ip6 : Str → Option Nat) : Prop where
  range : ∀ s x, ip6 s = some x → x < 2 ^ 128
  not4 : ∀ s x, V4 s x → ip6 s = none

/-- the addresses of an address text with an optional mask, the separators being `seps` -/
inductive Addresses (ip6 : Str → Option Nat) (seps : List Char) (s : Str) : Block → Prop
  | v4 (x : Nat) : V4 s x → Addresses ip6 seps s ⟨4, x, 0⟩
  | v4m (x p : Nat) : V4With seps s x p → Addresses ip6 seps s ⟨4, x, 32 - p⟩
  | v6 (x : Nat) : (∀ d ∈ seps, d ∉ s) → ip6 s = some x → Addresses ip6 seps s ⟨6, x, 0⟩
  | v6m (x p : Nat) : V6With ip6 seps s x p → Addresses ip6 seps s ⟨6, x, 128 - p⟩

/-- the flags of the address `x` of version 4; `priv` tells the private addresses -/
def v4Flags (priv : Nat → Bool) (x : Nat) : Dict Key Val := [
  (.s c!"is_link_local", .bool (decide (x / 2 ^ 16 = 169 * 256 + 254))), (.s c!"is_loopback", .bool (decide (x / 2 ^ 24 = 127))),
  (.s c!"is_multicast", .bool (decide (x / 2 ^ 28 = 14))), (.s c!"is_private", .bool (priv x)),
  (.s c!"is_reserved", .bool (decide (x / 2 ^ 28 = 15))), (.s c!"is_unspecified", .bool (x == 0)),
  (.s c!"max_prefixlen", .int 32)]

/-- what is to be told of the address `x` -/
def v4Facts (priv : Nat → Bool) (x : Nat) : Dict Key Val :=
  let me := dotted (octets x)
  [(.s c!"ip", .str me), (.s c!"compressed", .str me), (.s c!"exploded", .str me)] ++ v4Flags priv x ++ [(.s c!"version", .int 4)]

/-- what is to be told of the address `x` with a mask of `p` bits: its network has the `2 ^ (32 - p)` addresses from `base` on -/
def v4NetFacts (priv : Nat → Bool) (x p : Nat) : Dict Key Val :=
  let size := 2 ^ (32 - p)
  let base := x - x % size
  let me := dotted (octets x)
  let slash := '/' :: natStr p
  let netm := dotted (octets (netmask p))
  let hostm := dotted (octets (size - 1))
  [(.s c!"compressed", .str (me ++ slash)), (.s c!"exploded", .str (me ++ slash)), (.s c!"hostmask", .str hostm), (.s c!"ip", .str me)] ++
    v4Flags priv x ++
    [(.s c!"netmask", .str netm), (.s c!"network", .str (dotted (octets base) ++ slash)), (.s c!"version", .int 4),
    (.s c!"with_hostmask", .str (me ++ '/' :: hostm)), (.s c!"with_netmask", .str (me ++ '/' :: netm)),
    (.s c!"with_prefixlen", .str (me ++ slash)), (.s c!"broadcast_address", .str (dotted (octets (base + (size - 1))))),
    (.s c!"network_address", .str (dotted (octets base))), (.s c!"num_addresses", .int size),
    (.s c!"hosts", .int ((size : Int) - 2)), (.s c!"prefixlen", .int p)]

end Spec
