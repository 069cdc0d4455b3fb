import Verif.Model.Machine
/-!
# str.format

Model of `string.format(*args, **kwargs)` of Python, which `sformat` (ttp/match/string.py 25-27, ttp/group/sformat.py 10-21) and the file
returner (ttp/returners/file_returner.py 20-27) call with a string of the template.
-/

namespace TTP
open Py

namespace Fmt

/-- a field that is a name or a number only: no attribute, index, conversion or specification -/
def plainField (s : Str) : Bool := s.all (fun c => c != '.' && c != '[' && c != '!' && c != ':')

/-- numbering of fields: not known yet, `{}` (the number of the next one), `{0}` -/
inductive Num where
  | unknown | auto (n : Nat) | manual
  deriving DecidableEq, Repr

/-- the value of a plain field, and the numbering after it -/
def fieldVal (pos : List Val) (kw : Dict Str Val) (num : Num) (s : Str) : PyM (Val × Num) :=
  if s = [] then
    match num with
    | .manual => throw .valueError
    | .auto n => match pos[n]? with
      | some v => pure (v, .auto (n + 1))
      | none => throw .indexError
    | .unknown => match pos[0]? with
      | some v => pure (v, .auto 1)
      | none => throw .indexError
  else if s.all isDigit then
    match num with
    | .auto _ => throw .valueError
    | _ => match pos[natOfDigits s]? with
      | some v => pure (v, .manual)
      | none => throw .indexError
  else
    match Dict.get? kw s with
    | some v => pure (v, num)
    | none => throw .keyError

/-- one field: its text and the numbering after it; `special` renders the fields that are not plain. Simplification: these do not number
fields. -/
def renderField (special : Str → List Val → Dict Str Val → PyM Str) (pos : List Val) (kw : Dict Str Val) (num : Num) (s : Str) : PyM (Str × Num) :=
  if plainField s then do
    let r ← fieldVal pos kw num s
    pure (pyStr r.1, r.2)
  else do pure (← special s pos kw, num)

/-- A format string from left to right; `cur` is the field that is being read, backwards. Doubled braces are braces, single ones raise
`ValueError`. Simplification: a brace inside of a field raises (Python allows fields inside of a format specification). -/
def run (special : Str → List Val → Dict Str Val → PyM Str) (pos : List Val) (kw : Dict Str Val) : Num → Option Str → Str → PyM Str
  | _, none, [] => pure []
  | _, some _, [] => throw .valueError
  | num, none, '{' :: '{' :: cs => do pure ('{' :: (← run special pos kw num none cs))
  | num, none, '{' :: cs => run special pos kw num (some []) cs
  | num, none, '}' :: '}' :: cs => do pure ('}' :: (← run special pos kw num none cs))
  | _, none, '}' :: _ => throw .valueError
  | num, none, c :: cs => do pure (c :: (← run special pos kw num none cs))
  | num, some acc, '}' :: cs => do
    let r ← renderField special pos kw num acc.reverse
    pure (r.1 ++ (← run special pos kw r.2 none cs))
  | _, some _, '{' :: _ => throw .valueError
  | num, some acc, c :: cs => run special pos kw num (some (c :: acc)) cs

/-- `s.format(*pos, **kw)` -/
def format (special : Str → List Val → Dict Str Val → PyM Str) (s : Str) (pos : List Val) (kw : Dict Str Val) : PyM Str :=
  run special pos kw .unknown none s

/-- `**data`: the keys of the arguments are texts, anything else raises `TypeError` -/
def kwargsOf : Dict Key Val → PyM (Dict Str Val)
  | [] => pure []
  | (.s k, v) :: d => do pure ((k, v) :: (← kwargsOf d))
  | (.i _, _) :: _ => throw .typeError

end Fmt
end TTP
