import Verif.Py.Str
/-!
# Specification vocabulary: functions of match variables

Independent of the model of the functions.
-/

namespace Spec
open Py

/-! ## unrange -/

/-- One entry of a list like `8,10-13,eth0`: a word, or an ascending range of numbers. -/
inductive RItem where
  | word (w : Str)
  | range (a b : Nat)

/-- how the entry is written, with the range character `r` -/
def RItem.text (r : Char) : RItem → Str
  | .word w => w
  | .range a b => natStr a ++ r :: natStr b

/-- what the entry stands for: the word, or all numbers from `a` to `b` -/
def RItem.expanded : RItem → List Str
  | .word w => [w]
  | .range a b => (List.range' a (b + 1 - a)).map natStr

/-- a word is not empty and has no separator, a range is ascending -/
def RItem.Ok (r j : Char) : RItem → Prop
  | .word w => w ≠ [] ∧ r ∉ w ∧ j ∉ w
  | .range a b => a < b

/-! ## bits -/

/-- number of one bits among the lowest `w` bits -/
def bitCount (w n : Nat) : Nat := (List.range w).countP (fun i => n.testBit i)

/-- the four octets of a 32 bit number, highest first -/
def octets (n : Nat) : List Nat := [n / 2 ^ 24 % 256, n / 2 ^ 16 % 256, n / 2 ^ 8 % 256, n % 256]

/-- the netmask with `p` leading ones, as a 32 bit number -/
def netmask (p : Nat) : Nat := 2 ^ 32 - 2 ^ (32 - p)

/-- numbers written with dots between them -/
def dotted (ns : List Nat) : Str := join ['.'] (ns.map natStr)

/-! ## words -/

/-- `t` is the beginning of the text up to the end of a word -/
def WordPrefix (t s : Str) : Prop := t = s ∨ ∃ rest, s = t ++ ' ' :: rest

/-! ## networks -/

/-- a block of addresses with the same `w - k` leading bits (`k` host bits) -/
structure Block where
  version : Nat
  base : Nat
  k : Nat

/-- the address is in the block -/
def Block.Mem (b : Block) (version x : Nat) : Prop := version = b.version ∧ x / 2 ^ b.k = b.base / 2 ^ b.k

end Spec
