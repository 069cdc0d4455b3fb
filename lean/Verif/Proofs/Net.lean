import Verif.Model.Net
import Verif.Spec.Match
/-!
# Proofs about `cidr_match`
-/

namespace TTP
namespace Net
open Spec

theorem shiftRight_ones (w p : Nat) (h : p ≤ w) : (2 ^ w - 1) >>> p = 2 ^ (w - p) - 1 := by
  apply Nat.eq_of_testBit_eq
  intro i
  rw [Nat.testBit_shiftRight, Nat.testBit_two_pow_sub_one, Nat.testBit_two_pow_sub_one]
  congr 1
  apply propext
  omega

theorem mask_testBit (v p i : Nat) (h : p ≤ width v) :
    (mask v p).testBit i = decide (i < width v ∧ width v - p ≤ i) := by
  unfold mask
  rw [shiftRight_ones _ _ h]
  show (_ ^^^ _ : Nat).testBit i = _
  rw [Nat.testBit_xor, Nat.testBit_two_pow_sub_one, Nat.testBit_two_pow_sub_one]
  by_cases h1 : i < width v <;> by_cases h2 : i < width v - p <;> simp [h1, h2] <;> omega

/-- host bits are dropped -/
theorem land_mask (v p x : Nat) (h : p ≤ width v) (hx : x < 2 ^ width v) :
    Nat.land x (mask v p) = x / 2 ^ (width v - p) * 2 ^ (width v - p) := by
  apply Nat.eq_of_testBit_eq
  intro i
  show (x &&& mask v p).testBit i = _
  rw [Nat.testBit_and, mask_testBit v p i h, Nat.testBit_mul_two_pow, Nat.testBit_div_two_pow]
  by_cases h1 : width v - p ≤ i
  · rw [show i - (width v - p) + (width v - p) = i by omega]
    by_cases h2 : i < width v
    · simp [h1, h2]
    · have : x.testBit i = false := Nat.testBit_lt_two_pow (Nat.lt_of_lt_of_le hx (Nat.pow_le_pow_right (by omega) (by omega)))
      simp [this]
  · simp [h1]

/-- a network object as the `ipaddress` library makes them: prefix length and address in range, no host bits -/
structure Network.Ok (n : Network) : Prop where
  plen : n.plen ≤ width n.version
  addr : n.addr < 2 ^ width n.version
  noHost : 2 ^ (width n.version - n.plen) ∣ n.addr

/-- the block of addresses of a network -/
def Network.block (n : Network) : Block := ⟨n.version, n.addr, width n.version - n.plen⟩

theorem has_iff (n : Network) (hn : n.Ok) (v x : Nat) (hx : x < 2 ^ width v) : n.has v x = true ↔ n.block.Mem v x := by
  unfold Network.has Block.Mem Network.block
  simp only [ne_eq, ite_not]
  by_cases hv : n.version = v
  · subst hv
    simp only [if_true, true_and, beq_iff_eq]
    rw [land_mask _ _ _ hn.plen hx]
    have hp : 0 < 2 ^ (width n.version - n.plen) := Nat.two_pow_pos _
    constructor
    · intro h
      have := congrArg (· / 2 ^ (width n.version - n.plen)) h
      simp only [Nat.mul_div_cancel _ hp] at this
      exact this
    · intro h
      rw [h]
      exact Nat.div_mul_cancel hn.noHost
  · simp only [if_neg hv]
    constructor
    · intro h; cases h
    · intro h; exact absurd h.1.symm hv

theorem hostmask (v p : Nat) (h : p ≤ width v) : Nat.xor (mask v p) (2 ^ width v - 1) = 2 ^ (width v - p) - 1 := by
  apply Nat.eq_of_testBit_eq
  intro i
  show (mask v p ^^^ (2 ^ width v - 1)).testBit i = _
  rw [Nat.testBit_xor, mask_testBit v p i h, Nat.testBit_two_pow_sub_one, Nat.testBit_two_pow_sub_one]
  by_cases h1 : i < width v <;> by_cases h2 : i < width v - p <;> simp [h1, h2] <;> omega

theorem broadcast_eq (n : Network) (hn : n.Ok) : n.broadcast = n.addr + (2 ^ (width n.version - n.plen) - 1) := by
  unfold Network.broadcast
  rw [hostmask _ _ hn.plen]
  obtain ⟨c, hc⟩ := hn.noHost
  rw [hc]
  have hp := Nat.two_pow_pos (width n.version - n.plen)
  show (2 ^ (width n.version - n.plen) * c ||| _ : Nat) = _
  rw [← Nat.two_pow_add_eq_or_of_lt (by omega)]

theorem broadcast_mem (n : Network) (hn : n.Ok) : n.broadcast / 2 ^ (width n.version - n.plen) = n.addr / 2 ^ (width n.version - n.plen) := by
  rw [broadcast_eq n hn]
  obtain ⟨c, hc⟩ := hn.noHost
  have hp := Nat.two_pow_pos (width n.version - n.plen)
  rw [hc, Nat.mul_add_div hp, Nat.mul_div_cancel_left _ hp, Nat.div_eq_of_lt (by omega)]
  rfl

theorem broadcast_lt (n : Network) (hn : n.Ok) : n.broadcast < 2 ^ width n.version := by
  have hp := Nat.two_pow_pos (width n.version - n.plen)
  have h1 : n.broadcast / 2 ^ (width n.version - n.plen) < 2 ^ n.plen := by
    rw [broadcast_mem n hn, Nat.div_lt_iff_lt_mul hp, ← Nat.pow_add]
    have := hn.addr
    rwa [show n.plen + (width n.version - n.plen) = width n.version by have := hn.plen; omega]
  rw [Nat.div_lt_iff_lt_mul hp, ← Nat.pow_add] at h1
  rwa [show n.plen + (width n.version - n.plen) = width n.version by have := hn.plen; omega] at h1

theorem div_mono {x y k l : Nat} (h : x / 2 ^ k = y / 2 ^ k) (hkl : k ≤ l) : x / 2 ^ l = y / 2 ^ l := by
  have e : 2 ^ l = 2 ^ k * 2 ^ (l - k) := by rw [← Nat.pow_add]; congr 1; omega
  rw [e, ← Nat.div_div_eq_div_mul, ← Nat.div_div_eq_div_mul, h]

/-- two networks overlap iff they have an address in common -/
theorem overlaps_iff (s o : Network) (hs : s.Ok) (ho : o.Ok) :
    s.overlaps o = true ↔ ∃ v x, x < 2 ^ width v ∧ s.block.Mem v x ∧ o.block.Mem v x := by
  unfold Network.overlaps
  simp only [Bool.or_eq_true]
  rw [has_iff s hs _ _ ho.addr, has_iff s hs _ _ (broadcast_lt o ho), has_iff o ho _ _ hs.addr, has_iff o ho _ _ (broadcast_lt s hs)]
  constructor
  · rintro (h | h | h | h)
    · exact ⟨_, _, ho.addr, h, rfl, rfl⟩
    · exact ⟨_, _, broadcast_lt o ho, h, rfl, broadcast_mem o ho⟩
    · exact ⟨_, _, hs.addr, ⟨rfl, rfl⟩, h⟩
    · exact ⟨_, _, broadcast_lt s hs, ⟨rfl, broadcast_mem s hs⟩, h⟩
  · rintro ⟨v, x, _, ⟨h1, h2⟩, ⟨h3, h4⟩⟩
    simp only [Network.block] at h1 h2 h3 h4
    by_cases hk : width s.version - s.plen ≤ width o.version - o.plen
    · refine Or.inr (Or.inr (Or.inl ⟨by simp only [Network.block]; omega, ?_⟩))
      simp only [Network.block]
      rw [← div_mono h2 hk, h4]
    · refine Or.inl ⟨by simp only [Network.block]; omega, ?_⟩
      simp only [Network.block]
      rw [← div_mono h4 (by omega), h2]

theorem ifaceNet_ok (v x p : Nat) (hp : p ≤ width v) (hx : x < 2 ^ width v) : (ifaceNet v x p).Ok := by
  refine ⟨hp, ?_, ?_⟩
  · show Nat.land x _ < _
    rw [land_mask v p x hp hx]
    exact Nat.lt_of_le_of_lt (Nat.div_mul_le_self _ _) hx
  · show _ ∣ Nat.land x _
    rw [land_mask v p x hp hx]
    exact Nat.dvd_mul_left _ _

/-- block of the network of an interface -/
theorem iface_mem (v x p w y : Nat) (hp : p ≤ width v) (hx : x < 2 ^ width v) :
    (ifaceNet v x p).block.Mem w y ↔ (⟨v, x, width v - p⟩ : Block).Mem w y := by
  simp only [Block.Mem, Network.block, ifaceNet]
  rw [land_mask v p x hp hx, Nat.mul_div_cancel _ (Nat.two_pow_pos _)]

end Net
end TTP
