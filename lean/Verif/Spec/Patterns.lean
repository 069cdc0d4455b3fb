import Verif.Model.LineText
import Verif.Spec.Line
/-!
# Specification: what the named patterns stand for
-/

namespace Spec
open Py TTP

/-- `re.fullmatch(pattern, s)` finds something -/
def FullMatch (pattern s : Str) : Prop := ∃ r, ReText.compile pattern = some r ∧ ∃ h ∈ Re.run r s, h.1 = s

/-- the pattern of that name (`{{ x | NAME }}`) matches the whole of `s` -/
def NamedMatch (name s : Str) : Prop := ∃ p, getPattern name = some p ∧ FullMatch p s

/-- a digit of a hexadecimal number -/
def HexDigit (c : Char) : Prop := ('0' ≤ c ∧ c ≤ '9') ∨ ('a' ≤ c ∧ c ≤ 'f') ∨ ('A' ≤ c ∧ c ≤ 'F')

/-- between `lo` and `hi` decimal digits -/
def DigitsN (lo hi : Nat) (s : Str) : Prop := lo ≤ s.length ∧ s.length ≤ hi ∧ ∀ c ∈ s, Digit c

/-- between `lo` and `hi` hexadecimal digits -/
def HexN (lo hi : Nat) (s : Str) : Prop := lo ≤ s.length ∧ s.length ≤ hi ∧ ∀ c ∈ s, HexDigit c

/-- words with a single blank between them; at least two words -/
inductive PhraseText : Str → Prop
  | two (a b : Str) (ha : Word a) (hb : Word b) : PhraseText (a ++ ' ' :: b)
  | more (a s : Str) (ha : Word a) (hs : PhraseText s) : PhraseText (a ++ ' ' :: s)

/-- words with one or more blanks (not tabs) between them; at least two words -/
inductive RowText : Str → Prop
  | two (a b : Str) (n : Nat) (ha : Word a) (hb : Word b) : RowText (a ++ List.replicate (n + 1) ' ' ++ b)
  | more (a s : Str) (n : Nat) (ha : Word a) (hs : RowText s) : RowText (a ++ List.replicate (n + 1) ' ' ++ s)

/-- four numbers of one to three digits with dots between them -/
def Ip4Text (s : Str) : Prop :=
  ∃ a b c d, DigitsN 1 3 a ∧ DigitsN 1 3 b ∧ DigitsN 1 3 c ∧ DigitsN 1 3 d ∧ s = a ++ c!"." ++ b ++ c!"." ++ c ++ c!"." ++ d

/-- one to seven times up to four hexadecimal digits and a colon, then up to four hexadecimal digits or a colon -/
def Ip6Text (s : Str) : Prop :=
  ∃ (ws : List Str) (t : Str), 1 ≤ ws.length ∧ ws.length ≤ 7 ∧ (∀ w ∈ ws, HexN 0 4 w) ∧ (HexN 0 4 t ∨ t = c!":") ∧
    s = (ws.map (· ++ c!":")).flatten ++ t

/-- `n` separators (colon, dot or dash, each for itself) between pieces of exactly `k` hexadecimal digits -/
def HexPieces (k : Nat) : Nat → Str → Prop
  | 0, s => HexN k k s
  | n + 1, s => ∃ w c rest, HexN k k w ∧ (c = ':' ∨ c = '.' ∨ c = '-') ∧ s = w ++ c :: rest ∧ HexPieces k n rest

/-- six pairs or three fours of hexadecimal digits -/
def MacText (s : Str) : Prop := HexPieces 2 5 s ∨ HexPieces 4 2 s

end Spec
