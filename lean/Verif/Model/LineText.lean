import Verif.Model.Template
/-!
# The text of the regular expression of a line

Model of `_variable_class.form_regex` (ttp/ttp.py 2157-2331) as it is written: it builds the text of the regular expression, one
variable after the other, by replacing `{{content}}` in it; `_group_class.get_regexes` compiles the text at the end (1858).
`Model/Line` has the syntax tree instead; `Props/LineText` relates the two.
-/

namespace TTP
open Py Py.ReText

/-! ## Patterns -/

/-- `patterns.get(name)`, ttp/patterns/get_pattern.py 1-19: the patterns of TTP. Simplification: the other globals of that file
(`get`, `__name__`, ...) are left out. -/
def getPattern (name : Str) : Option Str :=
  Dict.get? [(c!"PHRASE", c!"(\\S+ {1})+?\\S+"), (c!"ROW", c!"(\\S+ +)+?\\S+"), (c!"ORPHRASE", c!"\\S+|(\\S+ {1})+?\\S+"),
    (c!"DIGIT", c!"\\d+"), (c!"IP", c!"(?:[0-9]{1,3}\\.){3}[0-9]{1,3}"),
    (c!"PREFIX", c!"(?:[0-9]{1,3}\\.){3}[0-9]{1,3}/[0-9]{1,2}"),
    (c!"IPV6", c!"(?:[a-fA-F0-9]{1,4}:|:){1,7}(?:[a-fA-F0-9]{1,4}|:?)"),
    (c!"PREFIXV6", c!"(?:[a-fA-F0-9]{1,4}:|:){1,7}(?:[a-fA-F0-9]{1,4}|:?)/[0-9]{1,3}"),
    (c!"_line_", c!".+"), (c!"WORD", c!"\\S+"),
    (c!"MAC", c!"(?:[0-9a-fA-F]{2}(:|\\.|\\-)){5}([0-9a-fA-F]{2})|(?:[0-9a-fA-F]{4}(:|\\.|\\-)){2}([0-9a-fA-F]{4})")] name

/-! ## Literal text -/

/-- `[ \t]+` -/
def blanksText : Str := c!"[ \\t]+"

/-- `re.sub(r"(\\ |\\\t)+", r"[ \\t]+", s)`, ttp/ttp.py 2179-2181: runs of escaped blanks. `inRun`: the last escaped blank was already
replaced; `bs`: the last character was a backslash that is not yet written. -/
def subBlanks : Bool → Bool → Str → Str
  | _, bs, [] => if bs then ['\\'] else []
  | inRun, true, c :: cs =>
    if isBlank c then (if inRun then subBlanks true false cs else blanksText ++ subBlanks true false cs)
    else if c = '\\' then '\\' :: subBlanks false true cs
    else '\\' :: c :: subBlanks false false cs
  | inRun, false, c :: cs => if c = '\\' then subBlanks inRun true cs else c :: subBlanks false false cs

/-- `re.sub(r"\d+", r"\\d+", s)`, ttp/ttp.py 2185 -/
def subDigits : Bool → Str → Str
  | _, [] => []
  | inRun, c :: cs =>
    if isDigit c then (if inRun then subDigits true cs else c!"\\d+" ++ subDigits true cs) else c :: subDigits false cs

/-- a chunk of literal text, ttp/ttp.py 2176-2186 -/
def chunkText (exact exactSp : Bool) (t : Str) : Str :=
  let e := if exactSp then escapeText t else subBlanks false false (escapeText t)
  if exact then e else subDigits false e

/-- `{{content}}`, ttp/ttp.py 2190 -/
def escVar (content : Str) : Str := c!"{{" ++ content ++ c!"}}"

/-- `esc_line`, ttp/ttp.py 2161-2189: the literal text escaped, the variables as they are; the first argument is the literal text
since the last variable -/
def escLine (exact exactSp : Bool) : Str → List (Elem Str) → Str
  | acc, [] => chunkText exact exactSp acc
  | acc, .ch c :: es => escLine exact exactSp (acc ++ [c]) es
  | acc, .var content :: es => chunkText exact exactSp acc ++ escVar content ++ escLine exact exactSp [] es

/-- `[\t ]*(?=\n|\r\n)`, ttp/ttp.py 2199, 2230 -/
def tailText : Str := c!"[\\t ]*(?=\\n|\\r\\n)"

/-- the text before any variable is replaced, ttp/ttp.py 2192-2201 -/
def startText (exact exactSp : Bool) (indent : Str) (es : List (Elem Str)) : Str :=
  c!"\\n" ++ (indent ++ escLine exact exactSp [] es) ++ tailText

/-! ## Variables -/

/-- the arguments of `ignore`, after the lookup in the template variables and the patterns, ttp/ttp.py 2203-2221 -/
inductive IgnArg where
  | none
  | one (p : Str)
  | many
  deriving DecidableEq, Repr

/-- A variable as `form_regex` finds it: `self.variable`, `self.var_name`, `self.var_res`, arguments of `ignore`, is there `set` among
the functions. -/
structure TextVar where
  content : Str
  name : Str
  res : List Str
  ign : IgnArg
  set : Bool
  deriving DecidableEq, Repr

/-- `s.find(old)`: the text before the first occurrence and after it -/
def findText (old : Str) : Str → Option (Str × Str)
  | [] => if old = [] then some ([], []) else none
  | c :: cs =>
    if startsWith (c :: cs) old then some ([], (c :: cs).drop old.length)
    else (findText old cs).map (fun x => (c :: x.1, x.2))

/-- `s.replace(old, new, 1)` -/
def replaceFirst (old new s : Str) : Str :=
  match findText old s with
  | some (a, b) => a ++ new ++ b
  | none => s

/-- `re.sub(r"(\[ \\t\]\+)$", "", s)`, ttp/ttp.py 2230; simplification: `s` does not end with a newline -/
def dropBlanksText (s : Str) : Str := if endsWith s blanksText then s.take (s.length - blanksText.length) else s

/-- `regex_deleteVar`, ttp/ttp.py 2223-2234 -/
def deleteVar (esc s : Str) : Str :=
  match findText esc s with
  | some (a, _) => dropBlanksText a ++ tailText
  | none => s

/-- `regex_ignore`, ttp/ttp.py 2203-2221 -/
def ignoreText (esc : Str) (a : IgnArg) (s : Str) : Str :=
  match a with
  | .none => replaceFirst esc c!"\\S+" s
  | .one p => replaceFirst esc (c!"(?:" ++ p ++ c!")") s
  | .many => s

/-- `r"(?P<{}>(?:{}))".format(self.var_name, r")|(?:".join(self.var_res))`, ttp/ttp.py 2311-2319 -/
def groupText (name : Str) (res : List Str) : Str :=
  c!"(?P<" ++ name ++ c!">(?:" ++ join c!")|(?:" (if res = [] then [c!"\\S+"] else res) ++ c!"))"

/-- what the name of the variable does, ttp/ttp.py 2292-2300 -/
def nameText (v : TextVar) (s : Str) : Str :=
  if v.name = c!"ignore" then ignoreText (escVar v.content) v.ign s
  else if v.name = c!"_start_" || v.name = c!"_end_" then deleteVar (escVar v.content) s
  else s

/-- `form_regex` for one variable, ttp/ttp.py 2292-2321; `s` is the text so far -/
def formVar (s : Str) (v : TextVar) : Str :=
  let s1 := nameText v s
  let s2 := if v.set then deleteVar (escVar v.content) s1 else s1
  if v.name ≠ c!"ignore" then replaceFirst (escVar v.content) (groupText v.name v.res) s2 else s2

/-- the same piece with another variable -/
def Elem.map {α β : Type} (f : α → β) : Elem α → Elem β
  | .ch c => .ch c
  | .var a => .var (f a)

/-- the line with the contents of its variables -/
def contents (es : List (Elem TextVar)) : List (Elem Str) := es.map (Elem.map TextVar.content)

/-- the text of the regular expression of a line, ttp/ttp.py 1822-1846 -/
def formLine (exact exactSp : Bool) (indent : Str) (es : List (Elem TextVar)) : Str :=
  (elemVars es).foldl formVar (startText exact exactSp indent (contents es))

/-! ## From the text of a template line -/

/-- What `extract_functions` finds out that matters for the regular expression: `self.var_res`, and is there `set` among
`self.functions`; ttp/ttp.py 2010-2155 -/
structure TextSt where
  pats : List Str
  set : Bool
  deriving DecidableEq, Repr

/-- attributes one after the other, ttp/ttp.py 2146-2155 -/
def eachText (k : FnCall → TextSt → PyM TextSt) : List FnCall → TextSt → PyM TextSt
  | [], st => pure st
  | f :: fs, st => do
    let st' ← k f st
    eachText k fs st'

/-- does the attribute name a pattern, ttp/ttp.py 2082-2100, 2118-2155: `_line_`, `re(...)`, a pattern of TTP -/
def isPatternAttr (ctx : LoadCtx) (f : FnCall) : Bool :=
  f.name = c!"_line_" || f.name = c!"re" || (decide (f.name ∉ keywords) && (ctx.patterns f.name).isSome)

/-- One attribute, ttp/ttp.py 2013-2155, as far as the regular expression is concerned; the first argument bounds the depth of chains
in chains. Simplification: attributes that have nothing to do with the regular expression do not raise here. -/
def extractText (ctx : LoadCtx) (line : Str) : Nat → FnCall → TextSt → PyM TextSt
  | 0, _, _ => throw .runtimeError
  | n + 1, f, st =>
    if isPatternAttr ctx f then do
      let t ← findReText ctx ((f.args.head?).getD (.str f.name))
      pure { st with pats := st.pats ++ [t] }
    else if f.name = c!"chain" then
      match f.args with
      | .str s :: _ =>
        match Dict.get? ctx.vars s with
        | none => pure st
        | some .none => pure st
        | some v => do
          let as ← chainAttrs ctx v
          eachText (extractText ctx line n) as st
      | _ => pure st
    else if f.name = c!"set" && rstrip line ≠ [] then pure { st with set := true }
    else pure st

/-- the arguments of `ignore`, ttp/ttp.py 2203-2221 -/
def ignText (ctx : LoadCtx) (f : FnCall) : PyM IgnArg :=
  match f.args with
  | [] => pure .none
  | [a] => do
    let t ← findReText ctx a
    pure (.one t)
  | _ => pure .many

/-- the arguments matter for `ignore` only -/
def ignTextOf (ctx : LoadCtx) (f : FnCall) : PyM IgnArg := if sanitize f.name = c!"ignore" then ignText ctx f else pure .none

/-- `_variable_class.__init__`, ttp/ttp.py 1966-2008, as far as the regular expression is concerned -/
def textVar (ctx : LoadCtx) (line content : Str) : PyM TextVar := do
  match ← getAttributes ctx content with
  | [] => throw .indexError
  | head :: attrs => do
    let st ← eachText (extractText ctx line chainDepth)
      ((if sanitize head.name ∈ keywords then [{ head with name := sanitize head.name }] else []) ++ attrs) ⟨[], false⟩
    let ign ← ignTextOf ctx head
    pure ⟨content, sanitize head.name, st.pats, ign, st.set⟩

/-- the variables of a line, ttp/ttp.py 1822-1824 -/
def textEls (ctx : LoadCtx) (line : Str) : List (Elem Str) → PyM (List (Elem TextVar))
  | [] => pure []
  | .ch c :: es => do
    let vs ← textEls ctx line es
    pure (.ch c :: vs)
  | .var content :: es => do
    let v ← textVar ctx line content
    let vs ← textEls ctx line es
    pure (.var v :: vs)

/-- the pieces of the template line `line`, ttp/ttp.py 1803-1824 -/
def lineEls (ctx : LoadCtx) (line : Str) : PyM (List (Elem TextVar)) :=
  textEls ctx (plainText (elems (rstrip line))) (elems (lstrip (rstrip line)))

/-- the text of the regular expression made of the pieces of the template line, ttp/ttp.py 1822-1846; lines with an unconditional `set`
or `_headers_` are handled elsewhere -/
def lineText (line : Str) (es : List (Elem TextVar)) : Str :=
  formLine (contains (rstrip line) c!"_exact_") (contains (rstrip line) c!"_exact_space_")
    ((rstrip line).take ((rstrip line).length - (lstrip (rstrip line)).length)) es

/-! ## Lines of headings -/

/-- `row_re`, ttp/ttp.py 2262-2284: name of the group and the quantifier of the dot in it, for every column -/
def headerCols (hs : List Str) (columns : Int) : PyM (List (Str × Str)) := do
  let m ← atIndex hs (columns - 1)
  let row := (sliceTo hs (columns - 1)).map (fun h => (strip h, c!"{" ++ natStr h.length ++ c!"}")) ++
    [(strip m, c!"{1," ++ natStr m.length ++ c!"}")] ++
    (sliceFrom hs columns).map (fun h => (strip h, c!"{0," ++ natStr h.length ++ c!"}"))
  let l ← atIndex hs (-1)
  pure (row.dropLast ++ [(strip l, if columns ≥ hs.length then c!"{1,}" else c!"*")])

/-- `"(?P<{}>.{{{}}})".format(..)`, ttp/ttp.py 2264 -/
def headerCol (c : Str × Str) : Str := c!"(?P<" ++ c.1 ++ c!">." ++ c.2 ++ c!")"

/-- the text of the expression, ttp/ttp.py 2287 -/
def headerText (cols : List (Str × Str)) : Str := c!"\\n" ++ (cols.map headerCol).flatten ++ c!"(?=\\n|\\r\\n)"

/-- the text of the expression of a line of headings, ttp/ttp.py 2246-2287; `attrs` are the attributes after `_headers_` -/
def headersText (l : Str) (attrs : List FnCall) : PyM Str := do
  let before := rstrip (textBefore (elems l))
  let columns ← columnsOf (headings before).length attrs ((headings before).length - 2)
  match headings before with
  | [] => throw .indexError
  | h :: hs => do
    let cols ← headerCols ((List.replicate (headingIndent before) ' ' ++ h) :: hs) columns
    pure (headerText cols)

end TTP
