import Verif.Model.Template
/-!
# Arguments of functions

`eval("_get_args_kwargs({})".format(options), _UndefSubst(globals()))`, ttp/utils/get_attributes.py 9-28, 56-75, for the arguments that templates
use: texts in quotes, integers, names, lists of them, and `name=value`. What Python does with other texts is a parameter.
-/

namespace TTP
open Py
namespace Args

/-- white space between tokens -/
def isBlank (c : Char) : Bool := c == ' ' || c == '\t' || c == Char.ofNat 12

/-- white space is skipped -/
def skip (s : Str) : Str := s.dropWhile isBlank

/-- escapes of Python with one letter -/
def escapes : List (Char × Char) :=
  [('\\', '\\'), ('\'', '\''), ('"', '"'), ('a', Char.ofNat 7), ('b', Char.ofNat 8), ('f', Char.ofNat 12), ('n', '\n'), ('r', '\r'), ('t', '\t'),
   ('v', Char.ofNat 11)]

/-- escapes that are not modelled: octal and hexadecimal numbers, names -/
def otherEscapes : List Char := ['0', '1', '2', '3', '4', '5', '6', '7', 'x', 'N', 'u', 'U']

/-- characters that cannot be in a text in quotes -/
def badChars : List Char := ['\n', '\r', Char.ofNat 0]

/-- a character after a back slash; unknown escapes stay as they are -/
def escape (c : Char) : Option Str :=
  match Dict.get? escapes c with
  | some d => some [d]
  | none => if c ∈ otherEscapes ∨ c ∈ badChars then none else some ['\\', c]

/-- something before the first -/
def before (t : Str) (r : Option (Str × Str)) : Option (Str × Str) := r.map (fun p => (t ++ p.1, p.2))

/-- a text up to the quote; `esc`: after a back slash -/
def quoted (q : Char) : Bool → Str → Option (Str × Str)
  | _, [] => none
  | true, c :: s =>
    match escape c with
    | some t => before t (quoted q false s)
    | none => none
  | false, c :: s =>
    if c = q then some ([], s)
    else if c = '\\' then quoted q true s
    else if c ∈ badChars then none
    else before [c] (quoted q false s)

/-- does a quote begin -/
def isQuote (c : Char) : Bool := c == '"' || c == '\''

/-- one text in quotes; two quotes before a third would begin a text with three quotes -/
def literal : Str → Option (Str × Str)
  | [] => none
  | q :: s =>
    if isQuote q then
      match quoted q false s with
      | some r => if s.head? = some q ∧ r.2.head? = some q then none else some r
      | none => none
    else none

/-- does the text, after white space, begin with a quote -/
def quoteNext (s : Str) : Bool := (skip s).head?.elim false isQuote

/-- texts in quotes one after the other are one text -/
def texts : Nat → Str → Option (Str × Str)
  | 0, _ => none
  | n + 1, s =>
    match literal s with
    | some r => if quoteNext r.2 then before r.1 (texts n (skip r.2)) else some r
    | none => none

/-- a digit -/
def isDig (c : Char) : Bool := decide ('0' ≤ c) && decide (c ≤ '9')
/-- the first character of a name -/
def isStart (c : Char) : Bool :=
  (decide ('a' ≤ c) && decide (c ≤ 'z')) || (decide ('A' ≤ c) && decide (c ≤ 'Z')) || c == '_'
/-- a character of a name -/
def isWordChar (c : Char) : Bool := isStart c || isDig c

/-- an integer, with the limit of 4300 digits; no leading zeros -/
def number (s : Str) : Option (Nat × Str) :=
  let ds := s.takeWhile isDig
  if ds = [] ∨ (ds.head? = some '0' ∧ ds ≠ ['0']) ∨ 4300 < ds.length then none else some (natOfDigits ds, s.dropWhile isDig)

/-- a name -/
def word (s : Str) : Option (Str × Str) :=
  if s.head?.elim false isStart then some (s.takeWhile isWordChar, s.dropWhile isWordChar) else none

/-- key words of Python (without `True`, `False`, `None`) -/
def pyKeywords : List Str :=
  [c!"and", c!"as", c!"assert", c!"async", c!"await", c!"break", c!"class", c!"continue", c!"def", c!"del", c!"elif", c!"else", c!"except", c!"finally",
   c!"for", c!"from", c!"global", c!"if", c!"import", c!"in", c!"is", c!"lambda", c!"nonlocal", c!"not", c!"or", c!"pass", c!"raise", c!"return", c!"try",
   c!"while", c!"with", c!"yield"]

/-- `True`, `False`, `None`: they cannot be names of arguments -/
def pyConstants : List Str := [c!"True", c!"False", c!"None"]

/-- names of the module, which are found before `__missing__` is called: get_attributes.py 1-30, `_ttp_` of ttp/ttp.py 51 -/
def moduleNames : List Str := [c!"re", c!"sys", c!"traceback", c!"logging", c!"log", c!"_UndefSubst", c!"_get_args_kwargs", c!"get_attributes", c!"_ttp_"]

/-- names that are not the text: key words, names of the module, `__name__` and such -/
def isOther (n : Str) : Bool := decide (n ∈ pyKeywords) || decide (n ∈ moduleNames) || startsWith n c!"__"

/-- `_UndefSubst.__missing__`, utils/get_attributes.py 14-22, and `True`, `False`, `None` -/
def nameVal (n : Str) : Val :=
  if lower n = c!"false" then .bool false
  else if lower n = c!"true" then .bool true
  else if lower n = c!"none" then .none
  else .str n

/-- the value of a name -/
def nameValue (s : Str) : Option (Val × Str) :=
  match word s with
  | some r => if isOther r.1 then none else some (nameVal r.1, r.2)
  | none => none

/-- the text of literals -/
def textValue (s : Str) : Option (Val × Str) := (texts s.length s).map (fun r => (.str r.1, r.2))
/-- an integer -/
def intValue (s : Str) : Option (Val × Str) := (number s).map (fun r => (.int r.1, r.2))
/-- a negative integer, after the sign -/
def negValue (s : Str) : Option (Val × Str) := (number (skip s)).map (fun r => (.int (-(r.1 : Int)), r.2))

/-- what follows the character `c`, if it comes first after white space -/
def after (c : Char) (s : Str) : Option Str :=
  match skip s with
  | [] => none
  | d :: r => if d = c then some r else none

mutual
/-- a value and what follows it -/
def value : Nat → Str → Option (Val × Str)
  | 0, _ => none
  | n + 1, s =>
    match s with
    | [] => none
    | c :: r =>
      if isQuote c then textValue (c :: r)
      else if isDig c then intValue (c :: r)
      else if c = '-' then negValue r
      else if c = '[' then (values n r).map (fun q => (.list q.1, q.2))
      else nameValue (c :: r)
/-- the values of a list up to the bracket -/
def values : Nat → Str → Option (List Val × Str)
  | 0, _ => none
  | n + 1, s =>
    match after ']' s with
    | some r => some ([], r)
    | none =>
      match value n (skip s) with
      | none => none
      | some v =>
        match after ',' v.2 with
        | some r => (values n r).map (fun q => (v.1 :: q.1, q.2))
        | none => (after ']' v.2).map (fun r => ([v.1], r))
end

/-- `name =`, and what follows -/
def keyword (s : Str) : Option (Str × Str) :=
  match word s with
  | some r =>
    match after '=' r.2 with
    | some t => some (r.1, t)
    | none => none
  | none => none

/-- one argument -/
def item (n : Nat) (s : Str) : Option ((Option Str × Val) × Str) :=
  match keyword s with
  | some k =>
    if k.1 ∈ pyKeywords ∨ k.1 ∈ pyConstants ∨ startsWith k.1 c!"__" then none
    else (value n (skip k.2)).map (fun v => ((some k.1, v.1), v.2))
  | none => (value n s).map (fun v => ((none, v.1), v.2))

/-- all arguments -/
def items : Nat → Str → Option (List (Option Str × Val))
  | 0, _ => none
  | n + 1, s =>
    if skip s = [] then some []
    else
      match item (n + 1) (skip s) with
      | none => none
      | some v =>
        if skip v.2 = [] then some [v.1]
        else
          match after ',' v.2 with
          | some r => (items n r).map (fun q => v.1 :: q)
          | none => none

/-- the arguments from the first one with a name on -/
def named (l : List (Option Str × Val)) : List (Option Str × Val) := l.dropWhile (fun i => i.1.isNone)

/-- no name is there twice -/
def distinct : List Str → Bool
  | [] => true
  | n :: ns => decide (n ∉ ns) && distinct ns

/-- arguments without a name come first, names are different (else `SyntaxError`) -/
def bind (l : List (Option Str × Val)) : Option (List Val × Dict Str Val) :=
  if (named l).all (fun i => i.1.isSome) ∧ distinct ((named l).map (fun i => i.1.getD [])) then
    some ((l.takeWhile (fun i => i.1.isNone)).map (·.2), (named l).map (fun i => (i.1.getD [], i.2)))
  else none

/-- the arguments, utils/get_attributes.py 56-75; `other`: what Python's `eval` does with all other texts (`none`: an exception) -/
def eval (other : Str → Option (List Val × Dict Str Val)) (s : Str) : Option (List Val × Dict Str Val) :=
  match items (s.length + 1) s with
  | some l => bind l
  | none => other s

end Args
end TTP
