import Verif.Py.Basic
/-!
# Python string methods used by the code
-/

namespace Py

/-- `str.isspace` characters (CPython's Unicode white space set), also the class `\s` of `re`. -/
def isSpace (c : Char) : Bool :=
  let n := c.toNat
  (9 ≤ n && n ≤ 13) || (28 ≤ n && n ≤ 32) || n == 0x85 || n == 0xA0 || n == 0x1680 ||
  (0x2000 ≤ n && n ≤ 0x200A) || n == 0x2028 || n == 0x2029 || n == 0x202F || n == 0x205F || n == 0x3000

/-- decimal digit; simplification: ASCII digits only (Python also accepts other Unicode digits). -/
def isDigit (c : Char) : Bool := decide (48 ≤ c.toNat) && decide (c.toNat ≤ 57)

/-- ASCII letter -/
def isAlpha (c : Char) : Bool :=
  (decide (65 ≤ c.toNat) && decide (c.toNat ≤ 90)) || (decide (97 ≤ c.toNat) && decide (c.toNat ≤ 122))

/-- `c.isalnum()`; simplification: ASCII -/
def isAlnum (c : Char) : Bool := isAlpha c || isDigit c

/-- class `\w` of `re`; simplification: ASCII -/
def isWord (c : Char) : Bool := isAlnum c || c == '_'

/-- `c.lower()`; simplification: ASCII -/
def lowerC (c : Char) : Char :=
  if 65 ≤ c.toNat ∧ c.toNat ≤ 90 then Char.ofNat (c.toNat + 32) else c

/-- `s.lower()` -/
def lower (s : Str) : Str := s.map lowerC

/-- `s.lstrip()` -/
def lstrip (s : Str) : Str := s.dropWhile isSpace

/-- `s.rstrip(chars)` with the set of characters given as a predicate -/
def rstripP (p : Char → Bool) (s : Str) : Str := (s.reverse.dropWhile p).reverse

/-- `s.rstrip()` -/
def rstrip (s : Str) : Str := rstripP isSpace s

/-- `s.strip()` -/
def strip (s : Str) : Str := rstrip (lstrip s)

/-- `s.isdigit()` -/
def isdigitS (s : Str) : Bool := !s.isEmpty && s.all isDigit

/-- `s.isalnum()` -/
def isalnumS (s : Str) : Bool := !s.isEmpty && s.all isAlnum

/-- `s.startswith(p)` -/
def startsWith (s p : Str) : Bool := p.isPrefixOf s

/-- `s.endswith(p)` -/
def endsWith (s p : Str) : Bool := p.isSuffixOf s

/-- `p in s` for strings -/
def contains : Str → Str → Bool
  | [], p => p.isEmpty
  | c :: cs, p => p.isPrefixOf (c :: cs) || contains cs p

/-- `s.split(c)` for a one-character separator -/
def splitC (sep : Char) : Str → List Str
  | [] => [[]]
  | c :: cs =>
    if c = sep then [] :: splitC sep cs
    else match splitC sep cs with
      | [] => [[c]]
      | w :: ws => (c :: w) :: ws

/-- worker of `split`: `skip` characters of the separator are still to be dropped, `acc` is the current piece
(reversed) -/
def splitAux (sep : Str) : Str → Nat → Str → List Str
  | [], _, acc => [acc.reverse]
  | _ :: cs, k + 1, acc => splitAux sep cs k acc
  | c :: cs, 0, acc =>
    if sep.isPrefixOf (c :: cs) then acc.reverse :: splitAux sep cs (sep.length - 1) []
    else splitAux sep cs 0 (c :: acc)

/-- `s.split(sep)` for a non-empty separator string (an empty one raises `ValueError`, see callers) -/
def split (sep s : Str) : List Str := splitAux sep s 0 []

/-- `sep.join(parts)` -/
def join (sep : Str) : List Str → Str
  | [] => []
  | [w] => w
  | w :: w2 :: ws => w ++ sep ++ join sep (w2 :: ws)

/-- `s.replace(old, new)` for non-empty `old`: left to right, non-overlapping -/
def replaceAux (old new : Str) : Str → Nat → Str
  | [], _ => []
  | _ :: cs, k + 1 => replaceAux old new cs k
  | c :: cs, 0 =>
    if old.isPrefixOf (c :: cs) then new ++ replaceAux old new cs (old.length - 1)
    else c :: replaceAux old new cs 0

/-- `s.replace(old, new)`; for empty `old` Python puts `new` around every character -/
def replace (s old new : Str) : Str :=
  if old.isEmpty then new ++ s.flatMap (fun c => c :: new) else replaceAux old new s 0

/-- value of one digit -/
def digitVal (c : Char) : Nat := c.toNat - 48

/-- value of a digit string -/
def natOfDigits (s : Str) : Nat := s.foldl (fun n c => 10 * n + digitVal c) 0

/-- body of an integer literal accepted by `int()`: digits with single underscores between digits -/
def intBody : Bool → Str → Bool
  | prev, [] => prev
  | prev, c :: cs => if isDigit c then intBody true cs else c == '_' && prev && intBody false cs

/-- `int(s)` for a string: white space around, optional sign, digits with single underscores; `none` for
`ValueError` -/
def intOfStr (s : Str) : Option Int :=
  match strip s with
  | [] => none
  | c :: cs =>
    if c = '-' then (if intBody false cs then some (-(natOfDigits (cs.filter isDigit) : Int)) else none)
    else if c = '+' then (if intBody false cs then some (natOfDigits (cs.filter isDigit) : Int) else none)
    else if intBody false (c :: cs) then some (natOfDigits ((c :: cs).filter isDigit) : Int) else none

/-- digit character of a number below ten -/
def digitChar (n : Nat) : Char := Char.ofNat (48 + n)

/-- digits of a number, most significant first; fuel = any bound on the number of digits -/
def natStrAux : Nat → Nat → Str → Str
  | 0, _, acc => acc
  | fuel + 1, n, acc =>
    if n < 10 then digitChar n :: acc else natStrAux fuel (n / 10) (digitChar (n % 10) :: acc)

/-- `str(n)` for a natural number -/
def natStr (n : Nat) : Str := natStrAux (n + 1) n []

/-- `str(n)` for an integer -/
def intStr : Int → Str
  | .ofNat n => natStr n
  | .negSucc n => '-' :: natStr (n + 1)

end Py
