import Verif.Model.Object
import Verif.Model.Format
import Verif.Model.Headers
import Verif.Py.RegexText
/-!
# Loading of groups from a template

Model of `_group_class` (ttp/ttp.py 1636-1930), of the part of `_variable_class` that reads the attributes of a variable
(1961-2155) and of `utils/get_attributes.py`. A template is taken as a tree of XML elements as `ElementTree` makes it (the XML
parser is not modelled). The arguments of a function, `eval("_get_args_kwargs(...)")`, and the compilation of the text of a
regular expression are parameters.
-/

namespace TTP
open Py

/-! ## XML elements -/

/-- An element as `ElementTree` makes it: tag, attributes in order, text before the first child (`none` is `None`), children,
text after the closing tag. -/
inductive Xml where
  | mk (tag : Str) (attrib : Dict Str Str) (text : Option Str) (children : List Xml) (tail : Option Str)

/-- `element.tag` -/
def Xml.tag : Xml → Str
  | .mk t _ _ _ _ => t
/-- `element.attrib` -/
def Xml.attrib : Xml → Dict Str Str
  | .mk _ a _ _ _ => a
/-- `element.text` -/
def Xml.text : Xml → Option Str
  | .mk _ _ t _ _ => t
/-- `list(element)` -/
def Xml.children : Xml → List Xml
  | .mk _ _ _ c _ => c
/-- `element.tail` -/
def Xml.tail : Xml → Option Str
  | .mk _ _ _ _ t => t

/-- What the loader is given: the variables of the template, `patterns.get` (ttp/patterns/get_pattern.py 14-19), the arguments of a
function from their text (`none`: it is no Python argument list), `re.compile` (`none`: no regular expression), the names of
group functions. -/
structure LoadCtx where
  vars : Dict Str Val
  patterns : Str → Option Str
  eval : Str → Option (List Val × Dict Str Val)
  re : Str → Option Re
  isGroupFn : Str → Bool

/-! ## Attributes -/

/-- `\s?(\((?P<options>.*)\))?$` after the name, utils/get_attributes.py 47: `none` if it does not match, else the options; the
item has no white space at its end -/
def attrTail (s : Str) : Option (Option Str) :=
  let t := match s with
    | c :: cs => if isSpace c then cs else c :: cs
    | [] => []
  match t with
  | [] => some none
  | '(' :: u => if u.getLast? = some ')' && !u.dropLast.contains '\n' then some (some u.dropLast) else none
  | _ => none

/-- `^(?P<name>\S+?)...`, utils/get_attributes.py 46-48: the shortest name; `acc` is what is known of it -/
def attrName : Str → Str → Option (Str × Option Str)
  | _, [] => none
  | acc, c :: cs =>
    if isSpace c then none
    else match attrTail cs with
      | some o => some (acc ++ [c], o)
      | none => attrName (acc ++ [c]) cs

/-- one item of the pipe, utils/get_attributes.py 42-76 -/
def attrOf (ctx : LoadCtx) (item : Str) : PyM FnCall :=
  match attrName [] item with
  | none => throw .systemExit
  | some (name, none) => pure ⟨name, [], []⟩
  | some (name, some []) => pure ⟨name, [], []⟩
  | some (name, some (c :: cs)) =>
    match ctx.eval (c :: cs) with
    | some (args, kwargs) => pure ⟨name, args, kwargs⟩
    | none => throw .systemExit

/-- the items one after the other -/
def attrsOf (ctx : LoadCtx) : List Str → PyM (List FnCall)
  | [] => pure []
  | i :: is => do
    let a ← attrOf ctx i
    pure (a :: (← attrsOf ctx is))

/-- `get_attributes(line)`, utils/get_attributes.py 30-77 -/
def getAttributes (ctx : LoadCtx) (line : Str) : PyM (List FnCall) :=
  attrsOf ctx (((splitC '|' line).map strip).filter (fun i => decide (i ≠ [])))

/-! ## Variables -/

/-- keys of `extract_funcs`, ttp/ttp.py 2116-2142 -/
def keywords : List Str :=
  [c!"ignore", c!"_start_", c!"_end_", c!"_line_", c!"_exact_", c!"_exact_space_", c!"_headers_", c!"columns", c!"chain",
   c!"set", c!"default", c!"joinmatches", c!"re", c!"contains_re", c!"startswith_re", c!"endswith_re", c!"notstartswith_re",
   c!"notendswith_re", c!"exclude_re", c!"exclude", c!"contains", c!"equal", c!"notequal", c!"sformat"]

/-- functions whose arguments may be names of template variables, ttp/ttp.py 2130-2141 -/
def argKeywords : List Str :=
  [c!"contains_re", c!"startswith_re", c!"endswith_re", c!"notstartswith_re", c!"notendswith_re", c!"exclude_re", c!"exclude",
   c!"contains", c!"equal", c!"notequal", c!"sformat"]

/-- `skip_defaults`, ttp/ttp.py 1997 -/
def skipDefaults : List Str := [c!"_end_", c!"_line_", c!"ignore", c!"_start_"]

/-- the lookup of a regular expression: template variable (if it is true), pattern of TTP, the text itself; ttp/ttp.py
2082-2100, 2206-2221; texts only, anything else cannot become part of a regular expression -/
def findReText (ctx : LoadCtx) : Val → PyM Str
  | .str s =>
    let t := match Dict.get? ctx.vars s with
      | some v => if v.truthy then v else .str ((ctx.patterns s).getD s)
      | none => .str ((ctx.patterns s).getD s)
    match t with
    | .str t => pure t
    | _ => throw .typeError
  | _ => throw .typeError

/-- the pattern that is found, as an expression. Simplification: a text that is no regular expression raises here, not when the
line is compiled. -/
def findRe (ctx : LoadCtx) (v : Val) : PyM Re := do
  let t ← findReText ctx v
  match ctx.re t with
  | some r => pure r
  | none => throw .reError

/-- `extract_re`, ttp/ttp.py 2082-2100 -/
def extractRe (ctx : LoadCtx) (f : FnCall) : PyM Re := findRe ctx ((f.args.head?).getD (.str f.name))

/-- `self.group.vars.get(i, i)`, ttp/ttp.py 2106-2109 -/
def argFromVars (vars : Dict Str Val) : Val → PyM Val
  | .str s => pure ((Dict.get? vars s).getD (.str s))
  | .list _ => throw .typeError
  | .dict _ => throw .typeError
  | v => pure v

/-- all arguments of a function, ttp/ttp.py 2105-2110 -/
def argsFromVars (vars : Dict Str Val) : List Val → PyM (List Val)
  | [] => pure []
  | a :: as => do
    let v ← argFromVars vars a
    pure (v :: (← argsFromVars vars as))

/-- the line without its variables, ttp/ttp.py 2021 -/
def plainText : List (Elem Str) → Str
  | [] => []
  | .ch c :: es => c :: plainText es
  | .var _ :: es => plainText es

/-- What `extract_functions` has found out about a variable so far: attributes of the variable, defaults of the group,
`skip_regex_dict`. -/
structure VarSt where
  attrs : List Attr
  defaults : Dict Key Val
  skip : Bool
  deriving DecidableEq, Repr

/-- the attributes of a chain: text or list of texts, ttp/ttp.py 2062-2070, 1750-1758 -/
def chainAttrs (ctx : LoadCtx) : Val → PyM (List FnCall)
  | .str s => getAttributes ctx s
  | .list xs => chainList xs
  | _ => throw .unboundLocal
where
  /-- items of a list -/
  chainList : List Val → PyM (List FnCall)
    | [] => pure []
    | .str s :: xs => do
      let a ← getAttributes ctx s
      pure (a ++ (← chainList xs))
    | _ :: _ => throw .attributeError

/-- attributes one after the other, ttp/ttp.py 2146-2155 -/
def eachAttr (k : FnCall → VarSt → PyM VarSt) : List FnCall → VarSt → PyM VarSt
  | [], st => pure st
  | f :: fs, st => do
    let st' ← k f st
    eachAttr k fs st'

/-- One attribute of the variable `orig` on a line, ttp/ttp.py 2013-2155; `line` is the line without its variables. The first
argument bounds the depth of chains in chains (Python raises `RecursionError`). `_headers_` as an attribute is taken for
`_start_`. -/
def extract (ctx : LoadCtx) (orig line : Str) : Nat → FnCall → VarSt → PyM VarSt
  | 0, _, _ => throw .runtimeError
  | n + 1, f, st =>
    if f.name = c!"ignore" then pure { st with attrs := st.attrs ++ [.ignore] }
    else if f.name = c!"_start_" || f.name = c!"_headers_" then pure { st with attrs := st.attrs ++ [.start] }
    else if f.name = c!"_end_" then pure { st with attrs := st.attrs ++ [.end_] }
    else if f.name = c!"_line_" then do
      let r ← extractRe ctx f
      pure { st with attrs := st.attrs ++ [.line r] }
    else if f.name = c!"_exact_" || f.name = c!"_exact_space_" || f.name = c!"columns" then pure st
    else if f.name = c!"chain" then
      match f.args with
      | [] => throw .indexError
      | a :: _ =>
        match a with
        | .str s =>
          match Dict.get? ctx.vars s with
          | none => pure st
          | some .none => pure st
          | some v => do
            let as ← chainAttrs ctx v
            eachAttr (extract ctx orig line n) as st
        | .list _ => throw .typeError
        | .dict _ => throw .typeError
        | _ => pure st
    else if f.name = c!"set" then
      if rstrip line ≠ [] then
        pure { st with attrs := st.attrs ++ [.set { f with kwargs := Dict.set f.kwargs c!"match_line" (.str ('\n' :: rstrip line)) }] }
      else
        match f.args with
        | [] => throw .indexError
        | a :: _ => pure { st with defaults := Dict.set st.defaults (.s orig) a, skip := true }
    else if f.name = c!"default" then
      if orig ∈ skipDefaults then pure st
      else
        match f.args with
        | [a] => pure { st with defaults := Dict.set st.defaults (.s orig) a }
        | _ => pure { st with defaults := Dict.set st.defaults (.s orig) (.str c!"None") }
    else if f.name = c!"joinmatches" then pure { st with attrs := st.attrs ++ [.joinmatches f] }
    else if f.name = c!"re" then do
      let r ← extractRe ctx f
      pure { st with attrs := st.attrs ++ [.pattern r] }
    else if f.name ∈ argKeywords then do
      let args ← argsFromVars ctx.vars f.args
      pure { st with attrs := st.attrs ++ [.fn { f with args := args }] }
    else if (ctx.patterns f.name).isSome then do
      let r ← extractRe ctx f
      pure { st with attrs := st.attrs ++ [.pattern r] }
    else pure { st with attrs := st.attrs ++ [.fn f] }
/-- attributes one after the other, ttp/ttp.py 2146-2155 -/
def extractAll (ctx : LoadCtx) (orig line : Str) (n : Nat) (fs : List FnCall) (st : VarSt) : PyM VarSt :=
  eachAttr (extract ctx orig line n) fs st

/-- bound for chains in chains (Python's recursion limit) -/
def chainDepth : Nat := 1000

/-- `ignore(pattern)`, ttp/ttp.py 2203-2221; simplification: with more than one argument as without -/
def ignoreArg (ctx : LoadCtx) (f : FnCall) : PyM (Option Re) :=
  match f.args with
  | [a] => do pure (some (← findRe ctx a))
  | _ => pure none

/-- group's default for all variables, ttp/ttp.py 1999-2006: only a text, not `_Not_Given_` -/
def groupDefault (dflt : Val) (orig : Str) (defaults : Dict Key Val) : Dict Key Val :=
  match dflt with
  | .str s =>
    if s ≠ c!"_Not_Given_" && !Dict.has defaults (.s orig) && decide (orig ∉ skipDefaults) then Dict.set defaults (.s orig) (.str s)
    else defaults
  | _ => defaults

/-- `_variable_class.__init__`, ttp/ttp.py 1966-2008: the variable, the defaults of the group and `skip_regex_dict`. The names
`_start_`, `_end_`, `_line_` and `ignore` are handled in `varInfo`; simplification: `_line_` as a name has no arguments and is
not a template variable. -/
def loadVar (ctx : LoadCtx) (dflt : Val) (line content : Str) (defaults : Dict Key Val) :
    PyM (VarDef × Dict Key Val × Bool) := do
  match ← getAttributes ctx content with
  | [] => throw .indexError
  | head :: attrs => do
    let d0 := groupDefault dflt head.name defaults
    let first := if sanitize head.name ∈ skipDefaults then []
      else if sanitize head.name ∈ keywords then [{ head with name := sanitize head.name }] else []
    let st ← extractAll ctx head.name line chainDepth (first ++ attrs) ⟨[], d0, false⟩
    let ign ← if sanitize head.name = c!"ignore" then ignoreArg ctx head else pure none
    pure (⟨head.name, ign, st.attrs⟩, st.defaults, st.skip)

/-! ## Lines -/

/-- the variables of a line, one after the other, ttp/ttp.py 1822-1840: the pieces of the line, the defaults, is there a
variable with `skip_regex_dict` -/
def lineVariables (ctx : LoadCtx) (dflt : Val) (line : Str) : List (Elem Str) → Dict Key Val →
    PyM (List (Elem VarDef) × Dict Key Val × Bool)
  | [], defaults => pure ([], defaults, false)
  | .ch c :: es, defaults => do
    let (vs, d, skip) ← lineVariables ctx dflt line es defaults
    pure (.ch c :: vs, d, skip)
  | .var content :: es, defaults => do
    let (v, d1, s1) ← loadVar ctx dflt line content defaults
    let (vs, d2, s2) ← lineVariables ctx dflt line es d1
    pure (.var v :: vs, d2, s1 || s2)

/-- is the line left out, ttp/ttp.py 1797-1814: white space, comment, no variable -/
def lineSkipped (line : Str) : Bool :=
  (strip line).isEmpty || startsWith (lstrip line) c!"##" || (elemVars (elems (rstrip line))).isEmpty

/-- the attributes of the variable `_headers_` if it is the only variable of the line. Simplification: a line with other variables beside
`_headers_` is loaded like any other line. -/
def headersVar (ctx : LoadCtx) (es : List (Elem Str)) : Option (Str × List FnCall) :=
  match elemVars es with
  | [content] =>
    match getAttributes ctx content with
    | .ok (h :: attrs) => if sanitize h.name = c!"_headers_" then some (content, attrs) else none
    | _ => none
  | _ => none

/-- `sub_variables`, ttp/ttp.py 2289-2297: one variable `name | strip | exclude(name)` for every heading -/
def subVars (ctx : LoadCtx) (dflt : Val) : List Str → Dict Key Val → PyM (Dict Str (Str × List FnCall) × Dict Key Val)
  | [], d => pure ([], d)
  | n :: ns, d => do
    let (v, d1, _) ← loadVar ctx dflt [] (n ++ c!" | strip | exclude(" ++ n ++ c!")") d
    let (vs, d2) ← subVars ctx dflt ns d1
    pure (Dict.update [(n, (v.name, (varInfo v).funcs))] vs, d2)

/-- a line of headings, ttp/ttp.py 1822-1864 and 2236-2297 -/
def loadHeaders (ctx : LoadCtx) (dflt : Val) (l content : Str) (attrs : List FnCall) (defaults : Dict Key Val) :
    PyM (Option LineRx × Dict Key Val) := do
  let (vd, d, skip) ← loadVar ctx dflt (plainText (elems l)) content defaults
  if skip then pure (none, d)
  else do
    let before := rstrip (textBefore (elems l))
    let columns ← columnsOf (headings before).length attrs ((headings before).length - 2)
    match headings before with
    | [] => throw .indexError
    | h :: hs => do
      let all := (List.replicate (headingIndent before) ' ' ++ h) :: hs
      let row ← headerRows all columns
      let (vs, d') ← subVars ctx dflt (all.map strip) d
      if groupNamesOk (row.map (·.1)) then
        pure (some ⟨headerRe row, Dict.update (lineVars [varInfo vd]) vs, lineAction [varInfo vd], (varInfo vd).isLine⟩, d')
      else throw .reError

/-- `re.compile(regex)`, ttp/ttp.py 1858: two groups of one name are an error -/
def compiled (rx : LineRx) : PyM LineRx := if (ReText.names rx.re).Nodup then pure rx else throw .reError

/-- one line of a group that is not left out, ttp/ttp.py 1803-1864: the compiled line (`none` for an unconditional `set`) and the
defaults -/
def loadLine (ctx : LoadCtx) (dflt : Val) (line : Str) (defaults : Dict Key Val) :
    PyM (Option LineRx × Dict Key Val) := do
  let l := rstrip line
  let body := lstrip l
  match headersVar ctx (elems body) with
  | some (content, attrs) => loadHeaders ctx dflt l content attrs defaults
  | none => do
    let (es, d, skip) ← lineVariables ctx dflt (plainText (elems l)) (elems body) defaults
    if skip then pure (none, d)
    else do
      let rx ← compiled (compileLine (contains l c!"_exact_") (contains l c!"_exact_space_") (l.take (l.length - body.length)) es)
      pure (some rx, d)

/-- the lines of a text, ttp/ttp.py 1793-1864 -/
def loadLines (ctx : LoadCtx) (dflt : Val) : List Str → Dict Key Val → PyM (List LineRx × Dict Key Val)
  | [], defaults => pure ([], defaults)
  | l :: ls, defaults =>
    if lineSkipped l then loadLines ctx dflt ls defaults
    else do
      let (r, d) ← loadLine ctx dflt l defaults
      let (rs, d') ← loadLines ctx dflt ls d
      pure (r.toList ++ rs, d')

/-! ## Groups -/

/-- What the attributes of a group tell, ttp/ttp.py 1671-1697; `gid` is `none` before a name is known -/
structure GAttrs where
  path : List Str
  name : Str
  gid : Option GId
  dflt : Val
  table : Bool
  inputs : List Str
  outputs : List Str
  funcs : List FnCall
  deriving DecidableEq, Repr

/-- `[(i.strip()) for i in O.split(",")]`, ttp/ttp.py 1715, 1719 -/
def commaList (s : Str) : List Str := (splitC ',' s).map strip

/-- `O.split(self.pathchar)` -/
def splitPath (pathchar s : Str) : PyM (List Str) := if pathchar = [] then throw .valueError else pure (split pathchar s)

/-- `O.lstrip("/")` -/
def dropSlashes (s : Str) : Str := s.dropWhile (· == '/')

/-- `extract_name`, ttp/ttp.py 1721-1735 -/
def groupPath (pathchar : Str) (path : List Str) (o : Str) : PyM (List Str) :=
  if startsWith o c!"/" then
    if c!"_anonymous_" ∈ path then do
      let p ← splitPath pathchar (dropSlashes o)
      pure (c!"_anonymous_*" :: p)
    else if o = c!"/" then pure [c!"_anonymous_*"]
    else splitPath pathchar (dropSlashes o)
  else do
    let p ← splitPath pathchar o
    pure (path ++ p)

/-- functions of a chain, ttp/ttp.py 1737-1768: options of a group in a chain get a dictionary instead of a text, which raises;
unknown functions are only logged -/
def chainFuncs (ctx : LoadCtx) (top : Bool) : List FnCall → List FnCall → PyM (List FnCall)
  | [], funcs => pure funcs
  | f :: fs, funcs =>
    if f.name = c!"method" || f.name = c!"name" then throw .attributeError
    else if f.name = c!"input" || f.name = c!"output" then
      if top then throw .attributeError else chainFuncs ctx top fs funcs
    else if f.name = c!"default" || f.name = c!"chain" || f.name = c!"functions" then throw .typeError
    else if ctx.isGroupFn f.name then chainFuncs ctx top fs (funcs ++ [f])
    else chainFuncs ctx top fs funcs

/-- one attribute of a group tag, ttp/ttp.py 1706-1791 -/
def groupAttr (ctx : LoadCtx) (pathchar : Str) (top : Bool) (index : Nat) (a : GAttrs) (name value : Str) : PyM GAttrs :=
  if lower name = c!"method" then pure { a with table := decide (strip (lower value) = c!"table") }
  else if lower name = c!"input" then pure (if top then { a with inputs := commaList value } else a)
  else if lower name = c!"output" then pure (if top then { a with outputs := commaList value } else a)
  else if lower name = c!"name" then do
    let p ← groupPath pathchar a.path value
    pure { a with path := p, name := join c!"." p, gid := some (join c!"." p, index) }
  else if lower name = c!"default" then pure { a with dflt := (Dict.get? ctx.vars value).getD (.str value) }
  else if lower name = c!"chain" || lower name = c!"functions" then do
    let as ← chainAttrs ctx ((Dict.get? ctx.vars value).getD (.str value))
    pure { a with funcs := ← chainFuncs ctx top as a.funcs }
  else do
    let fs ← getAttributes ctx (name ++ '(' :: (value ++ [')']))
    match fs with
    | f :: _ => pure { a with funcs := a.funcs ++ [f] }
    | [] => throw .indexError

/-- all attributes in order, ttp/ttp.py 1787-1791 -/
def groupAttrs (ctx : LoadCtx) (pathchar : Str) (top : Bool) (index : Nat) : Dict Str Str → GAttrs → PyM GAttrs
  | [], a => pure a
  | (n, v) :: rest, a => do
    let a' ← groupAttr ctx pathchar top index a n v
    groupAttrs ctx pathchar top index rest a'

/-- `set_anonymous_path`, ttp/ttp.py 1699-1704 -/
def anonymousPath (top : Bool) (index : Nat) (a : GAttrs) : GAttrs :=
  if a.name = [] then
    let p := if top then [c!"_anonymous_*"] else a.path
    { a with path := p, name := join c!"." p, gid := some (join c!"." p ++ c!"._anonymous_", index) }
  else a

/-- What is collected while the text and the tails of a group are read: lines, defaults, `has_start_re_default`. -/
structure GState where
  lines : GroupLines
  defaults : Dict Key Val
  hasDefault : Bool
  deriving DecidableEq, Repr

/-- does a variable of a start line have a default, ttp/ttp.py 1881-1888 -/
def startDefault (start : List LineRx) (defaults : Dict Key Val) : Bool :=
  start.any (fun l => (Dict.keys l.vars).any (fun n => Dict.has defaults (.s n)))

/-- `get_regexes`, ttp/ttp.py 1793-1888; the text `None` raises `AttributeError` -/
def getRegexes (ctx : LoadCtx) (a : GAttrs) (tail : Bool) (text : Option Str) (g : GState) : PyM GState :=
  match text with
  | none => throw .attributeError
  | some t => do
    let (rs, d) ← loadLines ctx a.dflt (Format.splitlines t) g.defaults
    let lines := classify tail a.table 0 rs g.lines
    let (d', h) := match a.dflt with
      | .dict dd => (Dict.update d dd, g.hasDefault || lines.start.isEmpty)
      | _ => (d, g.hasDefault)
    pure ⟨lines, d', h || startDefault lines.start d'⟩

/-- the text after a child, ttp/ttp.py 1907-1909: read if it is not only white space; `None` raises -/
def readTail (ctx : LoadCtx) (a : GAttrs) (tail : Option Str) (g : GState) : PyM GState :=
  match tail with
  | none => throw .attributeError
  | some t => if strip t = [] then pure g else getRegexes ctx a true (some t) g

/-- A loaded group: what is needed from a top group as well. -/
structure Loaded where
  grp : Grp
  name : Str
  inputs : List Str
  outputs : List Str

mutual
/-- `_group_class.__init__`, ttp/ttp.py 1639-1697. `uid` numbers the groups in the order of their creation; the result has the
next free number. -/
def loadGroup (ctx : LoadCtx) (pathchar : Str) (top : Bool) (path : List Str) (parent : Option GId) (index uid : Nat) :
    Xml → PyM (Loaded × Nat)
  | .mk _ attrib text children _ => do
    let a0 ← groupAttrs ctx pathchar top index attrib ⟨path, [], none, .str c!"_Not_Given_", false, [], [], []⟩
    let a := anonymousPath top index a0
    let g0 ← getRegexes ctx a false text ⟨⟨[], [], []⟩, [], false⟩
    let gid := a.gid.getD ([], 0)
    let (cs, g, uid') ← loadChildren ctx pathchar a gid 0 (uid + 1) children g0
    pure (⟨.mk ⟨uid, gid, parent, a.path, a.funcs, g.defaults⟩ g.lines.start g.lines.normal g.lines.end_ g.hasDefault cs,
      a.name, a.inputs, a.outputs⟩, uid')
/-- `get_children`, ttp/ttp.py 1890-1909: every child element is a group; the text after it belongs to the parent -/
def loadChildren (ctx : LoadCtx) (pathchar : Str) (a : GAttrs) (gid : GId) (index uid : Nat) :
    List Xml → GState → PyM (List Grp × GState × Nat)
  | [], g => pure ([], g, uid)
  | x :: xs, g => do
    let (c, uid1) ← loadGroup ctx pathchar false a.path (some gid) index uid x
    let g1 ← readTail ctx a x.tail g
    let (cs, g2, uid2) ← loadChildren ctx pathchar a gid (index + 1) uid1 xs g1
    pure (c.grp :: cs, g2, uid2)
end

/-- top groups in order, ttp/ttp.py 1220-1230, 1247-1248 -/
def loadGroups (ctx : LoadCtx) (pathchar : Str) (index uid : Nat) : List Xml → PyM (List TopGroup)
  | [] => pure []
  | x :: xs => do
    let (g, uid') ← loadGroup ctx pathchar true [] none index uid x
    let gs ← loadGroups ctx pathchar (index + 1) uid' xs
    pure (⟨index, g.name, g.inputs, g.grp⟩ :: gs)

end TTP
