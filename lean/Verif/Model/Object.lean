import Verif.Model.Match
/-!
# The parser object

Model of class `ttp` (ttp/ttp.py 187-811), of the run-time part of `_template_class` (977-1072), `_input_class`
(1425-1615), `_parser_class.set_data` (2362-2422) and `_outputter_class.run` (3395-3443). Loading of templates (XML) is not
modelled: a template is taken as loaded.
-/

namespace TTP
open Py

/-! ## The world outside -/

/-- What the parser asks the operating system: files, directories, sizes. -/
structure World where
  isFile : Str → Bool
  isDir : Str → Bool
  listdir : Str → List Str
  readFile : Str → PyM Str
  fileSize : Str → Nat
  sizeOf : Val → Nat
  templatesDir : Option Str
  ttpTemplate : Str → Str

/-- first component of a data item, ttp/utils/loaders.py 26-99 -/
inductive DKind where
  | text | file | structured
  deriving DecidableEq, Repr

/-- A data item `(type, data)`. -/
structure Datum where
  kind : DKind
  val : Val
  deriving DecidableEq, Repr

/-- `os.path.join(a, b)`; simplification: `b` is a relative path, `a` does not end with a slash -/
def pathJoin (a b : Str) : Str := a ++ '/' :: b

/-- `load_files(path, read=False)` without extensions and filters, ttp/utils/loaders.py 26-99 (Python 3) -/
def loadFiles (w : World) : Val → List Datum
  | .str path =>
    if startsWith path c!"ttp://" then [⟨.text, .str (w.ttpTemplate (replace path c!"ttp://" []))⟩]
    else if w.isFile (path.take 5000) then [⟨.file, .str path⟩]
    else
      match w.templatesDir with
      | some dir =>
        if !dir.isEmpty && w.isFile (pathJoin dir (path.take 5000)) then [⟨.file, .str (pathJoin dir (path.take 5000))⟩]
        else if w.isDir (path.take 5000) then
          ((w.listdir path).filter (fun f => w.isFile (pathJoin path f))).map (fun f => ⟨.file, .str (pathJoin path f)⟩)
        else [⟨.text, .str path⟩]
      | none =>
        if w.isDir (path.take 5000) then
          ((w.listdir path).filter (fun f => w.isFile (pathJoin path f))).map (fun f => ⟨.file, .str (pathJoin path f)⟩)
        else [⟨.text, .str path⟩]
  | v => [⟨.structured, v⟩]

/-- `_load_template_file(path, True)`, ttp/utils/loaders.py 7-21: a file that is not UTF-8 gives `None` instead of a list, and every caller
indexes or iterates what it gets, which raises `TypeError`. -/
def readTemplateFile (w : World) (path : Str) : PyM (List Str) :=
  match w.readFile path with
  | .ok s => pure [s]
  | .error .unicodeError => throw .typeError
  | .error e => throw e

/-- `load_files(path, read=True)` for a text, ttp/utils/loaders.py 7-24, 41-99 (Python 3), without extensions and filters: the texts. -/
def loadRead (w : World) (path : Str) : PyM (List Str) :=
  if startsWith path c!"ttp://" then pure [w.ttpTemplate (replace path c!"ttp://" [])]
  else if w.isFile (path.take 5000) then readTemplateFile w path
  else
    match w.templatesDir with
    | some dir =>
      if !dir.isEmpty && w.isFile (pathJoin dir (path.take 5000)) then readTemplateFile w (pathJoin dir (path.take 5000))
      else if w.isDir (path.take 5000) then
        ((w.listdir path).filter (fun f => w.isFile (pathJoin path f))).mapM (fun f => w.readFile (pathJoin path f))
      else pure [path]
    | none =>
      if w.isDir (path.take 5000) then
        ((w.listdir path).filter (fun f => w.isFile (pathJoin path f))).mapM (fun f => w.readFile (pathJoin path f))
      else pure [path]

/-! ## Templates and inputs -/

/-- A top group of a template: index, name, `inputs` attribute and the group itself, ttp/ttp.py 1639-1697, 1707-1720 -/
structure TopGroup where
  index : Nat
  name : Str
  inputs : List Str
  grp : Grp

/-- An input: data, indexes of the groups to run and functions, ttp/ttp.py 1437-1468 -/
structure TInput where
  data : List Datum
  groups : List Nat
  functions : List FnCall
  parameters : Val
  deriving DecidableEq, Repr

/-- An output, ttp/ttp.py 3278-3294, 3338-3342; `condition` are the arguments of the condition attribute; `selfFlag` is
`return_to_self`. -/
structure Outputter where
  name : Option Str
  funcs : List FnCall
  format : Str
  returners : List Str
  condition : Option (List Val)
  selfFlag : Bool
  deriving DecidableEq, Repr

/-- A loaded template, ttp/ttp.py 905-958. `vtr` and `varFns` are the entries `_vars_to_results_` and `_var_functions_` of the
variables. -/
structure Tpl where
  name : Str
  groups : List TopGroup
  inputs : Dict Str TInput
  vars : Dict Str Val
  vtr : Dict Str (List Str)
  varFns : Dict Str Str
  lookups : Dict Str Val
  outputs : List Outputter
  method : Str
  results : Val

/-- The parser object with the parts of `_ttp_` it changes, ttp/ttp.py 219-249 -/
structure TTPObj where
  templates : List Tpl
  vars : Dict Str Val
  lookups : Dict Str Val
  gvars : Dict Str Val

/-- Interpretation of functions: match, group, input, variable, output functions, formatters and returners (`none`: there is
no such formatter or returner). Simplification: input, variable and output functions do not change state. -/
structure Engine where
  world : World
  mf : MatchFns
  gf : GroupFns
  inFns : FnCall → Val → PyM (Val × Option Bool)
  varFns : Str → Val → Str → PyM Val
  outFns : FnCall → Val → PyM Val
  formatters : Str → Option (Val → PyM Val)
  returners : Str → Option (Val → PyM Unit)
  toInt : Bool
  /-- order of `list(set(...))` -/
  setOrder : List Nat → List Nat

/-! ## Inputs -/

/-- `load_data` with data, ttp/ttp.py 1601-1605 -/
def loadData (old new : List Datum) : List Datum :=
  new.foldl (fun acc d => if d ∈ acc then acc else acc ++ [d]) old

/-- `sorted(list(set(...)))`, ttp/ttp.py 1507-1510 -/
def sortedSet (l : List Nat) : List Nat := sorted (fun a b => decide (a ≤ b)) l.eraseDups

/-- `extract_groups`, ttp/ttp.py 1482-1510: groups that name the input are preferred, else the groups without inputs that
the input names (`all` for all of them) -/
def inputGroups (groups : List TopGroup) (name : Str) (names : List Str) : List Nat :=
  let byInput := (groups.filter (fun g => decide (g.inputs = []) && (decide (c!"all" ∈ names) || decide (g.name ∈ names)))).map (·.index)
  let byGroup := (groups.filter (fun g => decide (name ∈ g.inputs))).map (·.index)
  if byGroup ≠ [] then sortedSet byGroup else sortedSet byInput

/-- `update_input` with data (no element), ttp/ttp.py 1028-1055, 1463-1468 -/
def updateInput (E : Engine) (t : Tpl) (data : List Datum) (name : Str) (names : List Str) : Tpl :=
  let new : TInput := ⟨loadData [] data, inputGroups t.groups name names, [], .dict []⟩
  match Dict.get? t.inputs name with
  | some old =>
    let upd : TInput := { old with data := loadData old.data new.data, groups := E.setOrder (old.groups ++ new.groups) }
    { t with inputs := Dict.set t.inputs name upd }
  | none => { t with inputs := Dict.set t.inputs name new }

/-- does the template have the name or is it `_all_`, ttp/ttp.py 285, 331 -/
def selected (templateName : Str) (t : Tpl) : Bool := t.name == templateName || templateName == c!"_all_"

/-- `groups or ["all"]`, ttp/ttp.py 272, 309, 1038 -/
def orAll (names : List Str) : List Str := if names = [] then [c!"all"] else names

/-- `add_input`, ttp/ttp.py 251-286 -/
def addInput (E : Engine) (o : TTPObj) (data : Val) (inputName templateName : Str) (names : List Str) : TTPObj :=
  let items := loadFiles E.world data
  if items = [] then o
  else { o with templates := o.templates.map (fun t =>
    if selected templateName t then updateInput E t items inputName (orAll names) else t) }

/-- `clear_input`, ttp/ttp.py 319-332 -/
def clearInput (o : TTPObj) (templateName : Str) : TTPObj :=
  { o with templates := o.templates.map (fun t => if selected templateName t then { t with inputs := [] } else t) }

/-- `set_input`, ttp/ttp.py 288-317 -/
def setInput (E : Engine) (o : TTPObj) (data : Val) (inputName templateName : Str) (names : List Str) : TTPObj :=
  addInput E (clearInput o templateName) data inputName templateName names

/-- `get_input_load`, ttp/ttp.py 670-694 -/
def getInputLoad (o : TTPObj) : Dict Str (Dict Str Val) :=
  o.templates.foldl (fun ret t => Dict.set ret t.name (Dict.update [] (t.inputs.map (fun i => (i.1, i.2.parameters))))) []

/-! ## Variables and lookups -/

/-- `add_vars`, ttp/ttp.py 404-413 and 982-986 (templates inside of templates are not modelled) -/
def addVars (o : TTPObj) (d : Dict Str Val) : TTPObj :=
  { o with vars := Dict.update o.vars d, templates := o.templates.map (fun t => { t with vars := Dict.update t.vars d }) }

/-- `add_lookup`, ttp/ttp.py 382-402 and 977-980, after the table is loaded -/
def addLookup (o : TTPObj) (name : Str) (table : Val) : TTPObj :=
  { o with lookups := Dict.set o.lookups name table,
           templates := o.templates.map (fun t => { t with lookups := Dict.set t.lookups name table }) }

/-- `add_template`, ttp/ttp.py 349-380: a template source gives the loaded templates (its child templates, or itself), it is
given the variables of the parser object -/
def addTemplate (o : TTPObj) (src : Dict Str Val → List Tpl) : TTPObj := { o with templates := o.templates ++ src o.vars }

/-! ## Parsing of one data item -/

/-- the text and name of a data item, ttp/ttp.py 2370-2380: a file is looked up again when it is parsed -/
def dataOf (w : World) (d : Datum) : PyM (Val × Str) :=
  match d.kind, d.val with
  | .text, .str s => pure (.str (dataText s), c!"text_data")
  | .structured, v => pure (v, c!"structured_data")
  | .file, .str p => do
    match ← loadRead w p with
    | s :: _ => pure (.str (dataText s), p)
    | [] => throw .indexError
  | _, _ => throw .typeError

/-- `run_var_functions`, ttp/ttp.py 2410-2422: exceptions are logged, false values are not stored -/
def runVarFns (E : Engine) (text : Val) (name : Str) : Dict Str Str → Dict Str Val → Dict Str Val
  | [], vars => vars
  | (v, f) :: rest, vars =>
    match E.varFns f text name with
    | .ok r => runVarFns E text name rest (if r.truthy then Dict.set vars v r else vars)
    | .error _ => runVarFns E text name rest vars

/-- input functions, stop at the first `False` (the text of that function is kept), ttp/ttp.py 2390-2401 -/
def runInFns (E : Engine) : List FnCall → Val → PyM Val
  | [], v => pure v
  | f :: fs, v => do
    let (v', flag) ← E.inFns f v
    if flag = some false then pure v' else runInFns E fs v'

/-- `[self.groups[i] for i in groups_indexes]`, ttp/ttp.py 2602-2604 -/
def groupsOf (t : Tpl) : List Nat → PyM (List Grp)
  | [] => pure []
  | i :: is =>
    match t.groups[i]? with
    | some g => do pure (g.grp :: (← groupsOf t is))
    | none => throw .indexError

/-- `set_data` and `parse` for one data item, ttp/ttp.py 2362-2401, 2424-2639: results and global variables. The template
variables are copied, so what is recorded there ends with the item. Data that are not text raise `TypeError` in the
search (if there is a group to search for). -/
def parseDatum (E : Engine) (t : Tpl) (inp : TInput) (d : Datum) (main : Val) (gvars : Dict Str Val) :
    PyM (Val × Dict Str Val) := do
  let (text, name) ← dataOf E.world d
  let vars := runVarFns E text name t.varFns t.vars
  let text' ← runInFns E inp.functions text
  let gs ← groupsOf t inp.groups
  match text', gs with
  | .str s, gs => do
    let ms ← parseText E.mf E.gf E.toInt t.vtr gs s ⟨vars, gvars⟩ main
    pure (ms.results, ms.gvars)
  | _, [] => do
    let ms ← parseText E.mf E.gf E.toInt t.vtr [] [] ⟨vars, gvars⟩ main
    pure (ms.results, ms.gvars)
  | _, _ => throw .typeError

/-! ## Results of a template -/

/-- `_anonymous_` -/
def anon : Str := c!"_anonymous_"

/-- what is stored for one result, ttp/ttp.py 993-1007 -/
def formDatum (r : Val) : PyM Val :=
  match r with
  | .dict d =>
    match Dict.get? d (.s anon) with
    | some v =>
      let rest := Dict.erase d (.s anon)
      if rest = [] then pure v
      else
        match v with
        | .list xs => pure (.list (xs ++ [.dict rest]))
        | _ => throw .attributeError
    | none => pure (.dict d)
  | .list xs => if Val.str anon ∈ xs then throw .typeError else pure (.list xs)
  | v => pure v

/-- `form_results`, ttp/ttp.py 993-1013 -/
def formResults (t : Tpl) (r : Val) : PyM Tpl := do
  let datum ← formDatum r
  if t.method = c!"per_template" then pure { t with results := datum }
  else if t.method = c!"per_input" then
    match t.results with
    | .list xs => pure { t with results := .list (xs ++ [datum]) }
    | _ => throw .attributeError
  else pure t

/-- all data items of a template, in order, with their inputs, ttp/ttp.py 479-488, 513-514, 523-524 -/
def jobsOf (t : Tpl) : List (TInput × Datum) := (t.inputs.map (fun kv => kv.2.data.map (fun d => (kv.2, d)))).flatten

/-- per_input: one result for each item, ttp/ttp.py 512-520 -/
def parsePerInput (E : Engine) : List (TInput × Datum) → Tpl → Dict Str Val → PyM (Tpl × Dict Str Val)
  | [], t, g => pure (t, g)
  | (inp, d) :: rest, t, g => do
    let (r, g') ← parseDatum E t inp d (.dict []) g
    parsePerInput E rest (← formResults t r) g'

/-- `main_results or {}`, ttp/ttp.py 2367 -/
def orDict (v : Val) : Val := if v.truthy then v else .dict []

/-- per_template: the results so far are passed on, ttp/ttp.py 521-532 -/
def parsePerTemplate (E : Engine) (t : Tpl) : List (TInput × Datum) → Val → Dict Str Val → PyM (Val × Dict Str Val)
  | [], main, g => pure (main, g)
  | (inp, d) :: rest, main, g => do
    let (r, g') ← parseDatum E t inp d (orDict main) g
    parsePerTemplate E t rest r g'

/-- one template in one process, ttp/ttp.py 503-532 -/
def parseTplOne (E : Engine) (t : Tpl) (g : Dict Str Val) : PyM (Tpl × Dict Str Val) :=
  if lower t.method = c!"per_input" then parsePerInput E (jobsOf t) t g
  else if lower t.method = c!"per_template" then do
    let (r, g') ← parsePerTemplate E t (jobsOf t) (.dict []) g
    pure (← formResults t r, g')
  else pure (t, g)

/-- all templates, ttp/ttp.py 503-532 -/
def parseAllOne (E : Engine) : List Tpl → Dict Str Val → PyM (List Tpl × Dict Str Val)
  | [], g => pure ([], g)
  | t :: ts, g => do
    let (t', g') ← parseTplOne E t g
    let (ts', g'') ← parseAllOne E ts g'
    pure (t' :: ts', g'')

/-! ## Outputs -/

/-- functions of an output, ttp/ttp.py 3415-3419 -/
def runOutFns (E : Engine) : List FnCall → Val → PyM Val
  | [], v => pure v
  | f :: fs, v => do runOutFns E fs (← E.outFns f v)

/-- the formatter; an unknown one is skipped with a warning, ttp/ttp.py 3420-3428 -/
def formatWith (E : Engine) (fmt : Str) (v : Val) : PyM Val :=
  match E.formatters fmt with
  | some f => f v
  | none => pure v

/-- returners in order, unknown ones are skipped; `self` sets the flag; ttp/ttp.py 3429-3438, returners/self_returner.py -/
def runReturners (E : Engine) (v : Val) : List Str → Bool → PyM Bool
  | [], flag => pure flag
  | r :: rs, flag => do
    if r = c!"self" then runReturners E v rs true
    else
      match E.returners r with
      | some f => do f v; runReturners E v rs flag
      | none => runReturners E v rs flag

/-- the condition holds, ttp/ttp.py 3408-3413 (a condition needs exactly two arguments; an empty list is no condition); a name that
is no text names no variable (simplification: a list or dictionary as name, which is no key, is not rejected) -/
def condHolds (vars : Dict Str Val) : Option (List Val) → PyM Bool
  | none => pure true
  | some [] => pure true
  | some [.str n, v] => pure (MatchFn.pyEq ((Dict.get? vars n).getD (.str c!"_undef_")) v)
  | some [_, v] => pure (MatchFn.pyEq (.str c!"_undef_") v)
  | some _ => throw .valueError

/-- `_outputter_class.run`, ttp/ttp.py 3395-3443: the data handed on and the output with its flag -/
def runOutput (E : Engine) (vars : Dict Str Val) (o : Outputter) (data : Val) : PyM (Val × Outputter) := do
  if ← condHolds vars o.condition then do
    let r1 ← runOutFns E o.funcs data
    let r2 ← formatWith E o.format r1
    let flag ← runReturners E r2 o.returners o.selfFlag
    pure (if flag then r2 else data, { o with selfFlag := flag })
  else pure (data, o)

/-- `run_outputs`, ttp/ttp.py 988-991 -/
def runOutputsAux (E : Engine) (vars : Dict Str Val) : List Outputter → Val → PyM (Val × List Outputter)
  | [], v => pure (v, [])
  | o :: os, v => do
    let (v', o') ← runOutput E vars o v
    let (v'', os') ← runOutputsAux E vars os v'
    pure (v'', o' :: os')

/-- `run_outputs` of a template, ttp/ttp.py 988-991 -/
def runOutputs (E : Engine) (t : Tpl) : PyM Tpl := do
  let (v, os) ← runOutputsAux E t.vars t.outputs t.results
  pure { t with results := v, outputs := os }

/-- outputs of all templates, ttp/ttp.py 451 -/
def runOutputsAll (E : Engine) : List Tpl → PyM (List Tpl)
  | [] => pure []
  | t :: ts => do
    let t' ← runOutputs E t
    pure (t' :: (← runOutputsAll E ts))

/-! ## parse -/

/-- `_calculate_overall_data_size`, ttp/ttp.py 334-347: size and number of data items -/
def dataSize (w : World) (o : TTPObj) : Nat × Nat :=
  let ds := (o.templates.map jobsOf).flatten.map (·.2)
  ((ds.map (fun d => match d.kind, d.val with
    | .file, .str p => w.fileSize p
    | .text, v => w.sizeOf v
    | _, _ => 0)).sum, ds.length)

/-- The way `parse` goes. -/
inductive Mode where
  | one | multi | exit
  deriving DecidableEq, Repr

/-- choice of the mode, ttp/ttp.py 439-449 -/
def parseMode (threshold size count : Nat) (one multi : Bool) : Mode :=
  if one && multi then .exit
  else if one then .one
  else if multi then .multi
  else if size > threshold && count ≥ 2 then .multi
  else .one

/-- `parse(one=True)`, ttp/ttp.py 415-451 -/
def parseOne (E : Engine) (o : TTPObj) : PyM TTPObj := do
  let (ts, g) ← parseAllOne E o.templates o.gvars
  let ts' ← runOutputsAll E ts
  pure { o with templates := ts', gvars := g }

/-! ## result and clear_result -/

/-- `templates_obj`, ttp/ttp.py 619-627 -/
def pick (o : TTPObj) (names : List Str) : List Tpl :=
  if names = [] then o.templates else o.templates.filter (fun t => decide (t.name ∈ names))

/-- `result(structure="list")` without attributes, ttp/ttp.py 633-639 -/
def resultList (o : TTPObj) (names : List Str) : List Val := (pick o names).map (·.results)

/-- `result(structure="dictionary")` without attributes, ttp/ttp.py 640-651 -/
def resultDict (o : TTPObj) (names : List Str) : Dict Str Val :=
  ((pick o names).filter (fun t => decide (t.name ≠ []))).foldl (fun d t => Dict.set d t.name t.results) []

/-- `result(structure="flat_list")` without attributes, ttp/ttp.py 652-668 -/
def resultFlat (o : TTPObj) (names : List Str) : List Val :=
  (pick o names).foldl (fun ret t =>
    match t.results with
    | .list xs => xs.foldl (fun ret item => match item with
      | .list ys => ret ++ ys
      | v => ret ++ [v]) ret
    | v => ret ++ [v]) []

/-- `results.clear()`: lists and dictionaries, ttp/ttp.py 708-715 -/
def clearVal : Val → PyM Val
  | .list _ => pure (.list [])
  | .dict _ => pure (.dict [])
  | _ => throw .attributeError

/-- `clear_result`, ttp/ttp.py 696-715 -/
def clearResultL (names : List Str) : List Tpl → PyM (List Tpl)
  | [] => pure []
  | t :: ts => do
    let t' ← if names = [] ∨ t.name ∈ names then do pure { t with results := ← clearVal t.results } else pure t
    pure (t' :: (← clearResultL names ts))

/-- `clear_result`, ttp/ttp.py 696-715 -/
def clearResult (o : TTPObj) (names : List Str) : PyM TTPObj := do
  pure { o with templates := ← clearResultL names o.templates }

end TTP
