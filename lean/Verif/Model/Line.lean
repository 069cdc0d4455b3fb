import Verif.Model.Machine
/-!
# From a template line to a regular expression

Model of `_variable_class` (ttp/ttp.py 1961-2331) and `_group_class.get_regexes` (1793-1888). The code builds the text of a
regular expression and compiles it with `re`; the model builds the syntax tree of that expression. Attributes of
variables are taken in parsed form (`Attr`, the result of `get_attributes`).
-/

namespace TTP
open Py

/-! ## Pieces of a line -/

/-- A template line, cut into literal characters and variables. -/
inductive Elem (α : Type) where
  | ch (c : Char)
  | var (a : α)
  deriving DecidableEq, Repr

/-- `[\S\s]+?}}` after `{{`: text up to the first `}}` that comes after at least one character, and the rest;
ttp/ttp.py 1807, 2168 -/
def untilClose : Str → Option (Str × Str)
  | '}' :: '}' :: rest => some ([], rest)
  | c :: cs => (untilClose cs).map (fun r => (c :: r.1, r.2))
  | [] => none

/-- a variable at the beginning of the text: content and rest -/
def openVar : Str → Option (Str × Str)
  | '{' :: '{' :: c :: cs => (untilClose cs).map (fun r => (c :: r.1, r.2))
  | _ => none

/-- spans of `re.finditer(r"{{([\S\s]+?)}}", line)` and the text between them, ttp/ttp.py 2166-2189; the first argument
bounds the recursion (length of the line) -/
def elemsAux : Nat → Str → List (Elem Str)
  | 0, _ => []
  | _ + 1, [] => []
  | n + 1, c :: cs =>
    match openVar (c :: cs) with
    | some (body, rest) => .var body :: elemsAux n rest
    | none => .ch c :: elemsAux n cs

/-- the pieces of a line -/
def elems (line : Str) : List (Elem Str) := elemsAux line.length line

/-! ## Variables -/

/-- An attribute of a variable in parsed form, ttp/ttp.py 2118-2155. `pattern` is a regular expression given by
pattern name, template variable or `re()`. -/
inductive Attr where
  | pattern (r : Re)
  | start
  | end_
  | line (r : Re)
  | exact
  | exactSpace
  | joinmatches (f : FnCall)
  | set (f : FnCall)
  | dflt (v : Val)
  | fn (f : FnCall)
  | ignore
  deriving DecidableEq, Repr

/-- A variable: original name, the patterns given to `ignore(...)`, attributes, ttp/ttp.py 1984-1989. Names equal to another
key of `extract_funcs` (`set`, `default`, `re`, `contains`, ...) are not modelled. -/
structure VarDef where
  name : Str
  ignArg : Option Re
  attrs : List Attr
  deriving DecidableEq, Repr

/-- worker of `re.sub(r"\W+", "_", name)`: `inRun` tells that the previous character was already replaced -/
def subNonWord : Bool → Str → Str
  | _, [] => []
  | inRun, c :: cs => if isWord c then c :: subNonWord false cs else if inRun then subNonWord true cs else '_' :: subNonWord true cs

/-- `re.sub(r"\W+|^(?=\d)", "_", self.var_name)`, ttp/ttp.py 1994 -/
def sanitize (name : Str) : Str :=
  match name with
  | c :: cs => if isDigit c then '_' :: subNonWord false (c :: cs) else subNonWord false (c :: cs)
  | [] => []

/-- pattern `WORD`, ttp/patterns/get_pattern.py 10 -/
def reWORD : Re := Re.plus true (.cls .nspace)
/-- pattern `DIGIT`, ttp/patterns/get_pattern.py 4 -/
def reDIGIT : Re := Re.plus true (.cls .digit)
/-- pattern `PHRASE`, ttp/patterns/get_pattern.py 1 -/
def rePHRASE : Re :=
  .seq (Re.plus false (.seq (Re.plus true (.cls .nspace)) (.cls (.lit ' ')))) (Re.plus true (.cls .nspace))
/-- pattern `ROW`, ttp/patterns/get_pattern.py 2 -/
def reROW : Re :=
  .seq (Re.plus false (.seq (Re.plus true (.cls .nspace)) (Re.plus true (.cls (.lit ' '))))) (Re.plus true (.cls .nspace))
/-- pattern `ORPHRASE`, ttp/patterns/get_pattern.py 3 -/
def reORPHRASE : Re := .alt reWORD rePHRASE
/-- pattern `_line_`, ttp/patterns/get_pattern.py 9 -/
def reLINE : Re := Re.plus true (.cls .dot)

/-- What is known about a variable after `extract_functions`, ttp/ttp.py 1966-2155 -/
structure VarInfo where
  orig : Str
  name : Str
  action : Action
  isLine : Bool
  pats : List Re
  funcs : List FnCall
  /-- `regex_deleteVar` applies: `_start_`, `_end_`, conditional `set` -/
  cut : Bool
  /-- the variable is `ignore` -/
  ignore : Bool
  ignArg : Option Re
  /-- `skip_variable_dict`: the variable is not listed in `VARIABLES` -/
  hidden : Bool
  deriving DecidableEq, Repr

/-- one attribute, ttp/ttp.py 2013-2116 and 2288-2291 -/
def addAttr (v : VarInfo) : Attr → VarInfo
  | .pattern r => { v with pats := v.pats ++ [r] }
  | .start => { v with action := if v.name = c!"_start_" then .startempty else .start }
  | .end_ => { v with action := .end_ }
  | .line r => { v with action := .join, isLine := true, pats := v.pats ++ [r] }
  | .exact => v
  | .exactSpace => v
  | .joinmatches f => { v with action := .join, funcs := v.funcs ++ [f] }
  | .set f => { v with funcs := v.funcs ++ [f], cut := true }
  | .dflt _ => v
  | .fn f => { v with funcs := v.funcs ++ [f] }
  | .ignore => { v with hidden := true }

/-- the name itself as a keyword, ttp/ttp.py 2143-2145, 2283-2290 -/
def nameAttr (v : VarInfo) : VarInfo :=
  if v.name = c!"_start_" then { v with action := .startempty, cut := true }
  else if v.name = c!"_end_" then { v with action := .end_, cut := true }
  else if v.name = c!"_line_" then { v with action := .join, isLine := true, pats := [reLINE] }
  else if v.name = c!"ignore" then { v with ignore := true, hidden := true }
  else v

/-- `extract_functions`, ttp/ttp.py 2010-2155 -/
def varInfo (d : VarDef) : VarInfo :=
  d.attrs.foldl addAttr (nameAttr ⟨d.name, sanitize d.name, .add, false, [], [], false, false, d.ignArg, false⟩)

/-! ## Regular expression of a line -/

/-- `(?:p1)|(?:p2)`, ttp/ttp.py 2319; default pattern `WORD`, 2311-2312 -/
def altAll : List Re → Re
  | [] => reWORD
  | [r] => r
  | r :: rs => .alt r (altAll rs)

/-- regex of a variable, ttp/ttp.py 2203-2221, 2311-2321 -/
def varRe (v : VarInfo) : Re :=
  if v.ignore then
    match v.ignArg with
    | some r => r
    | none => reWORD
  else .cap v.name (altAll v.pats)

/-- blank: space or tab -/
def isBlank (c : Char) : Bool := c == ' ' || c == '\t'

/-- what the previous literal character was replaced by -/
inductive Kind where
  | other | blank | digit
  deriving DecidableEq, Repr

/-- `[ \t]+`, ttp/ttp.py 2179-2181 -/
def blanksRe : Re := Re.plus true (.cls (.oneOf [' ', '\t']))

/-- The chunks of a line: special characters are escaped, runs of blanks become `[ \t]+` unless `_exact_space_` is in the
line, runs of digits become `\d+` unless `_exact_` is in the line; variables become their expression;
ttp/ttp.py 2171-2189. `last` is the kind of the previous character of the same chunk. -/
def elemsRe (exact exactSp : Bool) : Kind → List (Elem VarInfo) → Re
  | _, [] => .eps
  | last, .ch c :: rest =>
    if !exactSp && isBlank c then
      if last = .blank then elemsRe exact exactSp .blank rest
      else .seq blanksRe (elemsRe exact exactSp .blank rest)
    else if !exact && isDigit c then
      if last = .digit then elemsRe exact exactSp .digit rest
      else .seq (Re.plus true (.cls .digit)) (elemsRe exact exactSp .digit rest)
    else .seq (.cls (.lit c)) (elemsRe exact exactSp .other rest)
  | _, .var v :: rest => .seq (varRe v) (elemsRe exact exactSp .other rest)

/-- `[\t ]*(?=\n|\r\n)`, ttp/ttp.py 2199, 2230 -/
def tailRe : Re :=
  .seq (.star true (.cls (.oneOf ['\t', ' ']))) (.look (.alt (Re.lits c!"\n") (Re.lits c!"\r\n")))

/-- is it a variable where the line is cut; `ignore` has already been replaced when `set` looks for it, ttp/ttp.py 2226, 2301-2309 -/
def Elem.isCut : Elem VarInfo → Bool
  | .var v => v.cut && !v.ignore
  | .ch _ => false

/-- is it a blank character -/
def Elem.isBlank {α : Type} : Elem α → Bool
  | .ch c => TTP.isBlank c
  | .var _ => false

/-- `regex_deleteVar`, ttp/ttp.py 2223-2234: the line up to the first `_start_`, `_end_` or `set`, without the blanks
before it (they stay with `_exact_space_`) -/
def cutElems (exactSp : Bool) (es : List (Elem VarInfo)) : List (Elem VarInfo) :=
  if es.any Elem.isCut then
    if exactSp then es.takeWhile (fun e => !e.isCut)
    else ((es.takeWhile (fun e => !e.isCut)).reverse.dropWhile Elem.isBlank).reverse
  else es

/-- the regular expression of a line, ttp/ttp.py 2191-2201: newline, indent as it is, the chunks, the end of line -/
def lineRe (exact exactSp : Bool) (indent : Str) (es : List (Elem VarInfo)) : Re :=
  .seq (.cls (.lit '\n')) (.seq (Re.lits indent) (.seq (elemsRe exact exactSp .other (cutElems exactSp es)) tailRe))

/-- variables of a line in order -/
def elemVars {α : Type} : List (Elem α) → List α
  | [] => []
  | .ch _ :: es => elemVars es
  | .var v :: es => v :: elemVars es

/-- action of a line, ttp/ttp.py 1819, 1850-1853: the action of the last variable that is not `ignore`, but a start stays a
start -/
def lineAction (vs : List VarInfo) : Action :=
  vs.foldl (fun a v => if a.isStart || v.name == c!"ignore" then a else v.action) .add

/-- `VARIABLES` of a line: original name and functions by sanitized name and by original name, ttp/ttp.py 1834-1840; not for `ignore` -/
def lineVars (vs : List VarInfo) : Dict Str (Str × List FnCall) :=
  vs.foldl (fun d v => if v.hidden then d
    else Dict.set (Dict.set d v.name (v.orig, v.funcs)) v.orig (v.orig, v.funcs)) []

/-- one entry of the `regexes` list, ttp/ttp.py 1856-1864 -/
structure LineRx where
  re : Re
  vars : Dict Str (Str × List FnCall)
  action : Action
  isLine : Bool
  deriving DecidableEq, Repr

/-- one template line, ttp/ttp.py 1815-1864 -/
def compileLine (exact exactSp : Bool) (indent : Str) (es : List (Elem VarDef)) : LineRx :=
  let vs : List (Elem VarInfo) := es.map (fun e => match e with
    | .ch c => .ch c
    | .var d => .var (varInfo d))
  ⟨lineRe exact exactSp indent vs, lineVars (elemVars vs), lineAction (elemVars vs), (elemVars vs).any (·.isLine)⟩

/-- A template line made of literal text and plain variables `{{ name }}`, from its text, ttp/ttp.py 1803-1834 and
2163-2189: the line without trailing white space; the indent is the leading white space. -/
def compileText (line : Str) : LineRx :=
  let l := rstrip line
  let body := lstrip l
  compileLine (contains l c!"_exact_") (contains l c!"_exact_space_") (l.take (l.length - body.length))
    ((elems body).map (fun e => match e with
      | .ch c => .ch c
      | .var content => .var ⟨strip content, none, []⟩))

/-! ## Which lines start a group -/

/-- lists of a group: start, ordinary and end lines -/
structure GroupLines where
  start : List LineRx
  normal : List LineRx
  end_ : List LineRx
  deriving DecidableEq, Repr

/-- classification of the lines, ttp/ttp.py 1866-1884; `i` is the index of the first of the lines -/
def classify (tail table : Bool) : Nat → List LineRx → GroupLines → GroupLines
  | _, [], g => g
  | i, l :: ls, g =>
    let g' : GroupLines :=
      if l.action = .end_ then { g with end_ := g.end_ ++ [l] }
      else if tail then { g with normal := g.normal ++ [l] }
      else if i = 0 || table then
        { g with start := g.start ++ [if l.action.isStart then l else { l with action := .start }] }
      else if l.action.isStart then { g with start := g.start ++ [l] }
      else { g with normal := g.normal ++ [l] }
    classify tail table (i + 1) ls g'

end TTP
