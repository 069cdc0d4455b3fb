import Verif.Model.Template
import Verif.Model.Load
/-!
# Loading of a template: all tags

Model of the loading part of `_template_class` (ttp/ttp.py 895-958, 1015-1026, 1057-1251, 1375-1415), of `_input_class` with an
element (1428-1615), of the attributes of `_outputter_class` (3278-3393) and of `load_struct` (ttp/utils/loaders.py 102-129). The XML
parser, the loaders of formats and what macro tags define are parameters or left out. `extend` tags are in Model/Extend.
-/

namespace TTP
open Py

/-- What loading a template needs from outside: the context of the loader of groups (its `vars` are not used), the engine (files, order
of sets), the loaders of formats by name, the names of the variable, input and output functions, and what `construct_etree` makes
of a child template without tags. That is a template with one group, ttp/ttp.py 1190, 1393-1398; the text of the child is formatted as
a `bytes` object there, so that its line ends become `\n` in letters. -/
structure TplCtx where
  load : LoadCtx
  eng : Engine
  loader : Str → Option (Str → Dict Str Val → PyM Val)
  isVarFn : Str → Bool
  isInFn : Str → Bool
  isOutFn : Str → Bool
  rewrap : Xml → Xml

/-- attributes as values -/
def attrVals (a : Dict Str Str) : Dict Str Val := a.map (fun kv => (kv.1, .str kv.2))

/-- `load_struct`, ttp/utils/loaders.py 102-129; simplification: no text with an empty `include` counts as the empty text -/
def loadStruct (C : TplCtx) (text : Option Str) (kw : Dict Str Val) : PyM Val :=
  match (Dict.get? kw c!"load").getD (.str c!"python") with
  | .str l =>
    if text.getD [] = [] ∧ (Dict.get? kw c!"include").getD .none = .none then pure .none
    else match C.loader (lower l) with
      | none => throw .keyError
      | some f => f (text.getD []) kw
  | _ => throw .attributeError

/-- entries of a dictionary with texts as keys; simplification: other keys are left out -/
def strKeys (d : Dict Key Val) : Dict Str Val :=
  d.filterMap (fun kv => match kv.1 with
    | .s k => some (k, kv.2)
    | .i _ => none)

/-! ## Tags -/

/-- kinds of tags, ttp/ttp.py 1138-1155 -/
inductive TagKind where
  | vars | group | output | input | lookup | template | macro | doc | invalid
  deriving DecidableEq, Repr

/-- `tags_funcs`, ttp/ttp.py 1138-1158 -/
def tagKind (tag : Str) : TagKind :=
  let t := lower tag
  if t ∈ [c!"v", c!"vars", c!"variables"] then .vars
  else if t ∈ [c!"g", c!"grp", c!"group"] then .group
  else if t ∈ [c!"o", c!"out", c!"output"] then .output
  else if t ∈ [c!"i", c!"in", c!"input"] then .input
  else if t = c!"lookup" then .lookup
  else if t = c!"template" then .template
  else if t = c!"macro" then .macro
  else if t = c!"doc" then .doc
  else .invalid

/-- `self.tags`, ttp/ttp.py 936-945 -/
structure Tags where
  vars : List Xml
  groups : List Xml
  outputs : List Xml
  inputs : List Xml
  lookups : List Xml
  templates : List Xml

/-- `collect_tags`, ttp/ttp.py 1130-1181: a `doc` tag without text raises `TypeError`; simplification: macro tags load without an
exception -/
def collectTags : List Xml → Tags → PyM Tags
  | [], t => pure t
  | x :: xs, t =>
    match tagKind x.tag with
    | .vars => collectTags xs { t with vars := t.vars ++ [x] }
    | .group => collectTags xs { t with groups := t.groups ++ [x] }
    | .output => collectTags xs { t with outputs := t.outputs ++ [x] }
    | .input => collectTags xs { t with inputs := t.inputs ++ [x] }
    | .lookup => collectTags xs { t with lookups := t.lookups ++ [x] }
    | .template => collectTags xs { t with templates := t.templates ++ [x] }
    | .doc => if x.text = none then throw .typeError else collectTags xs t
    | .macro => collectTags xs t
    | .invalid => collectTags xs t

/-- attributes of a template: name, base path, results method, path character, ttp/ttp.py 909, 923-927 -/
structure TAttrs where
  name : Str
  base : Str
  method : Str
  pathchar : Str
  deriving DecidableEq, Repr

/-- `get_template_attributes`, ttp/ttp.py 1106-1128 -/
def tplAttrs : Dict Str Str → TAttrs → TAttrs
  | [], a => a
  | (n, v) :: rest, a =>
    if n = c!"name" then tplAttrs rest { a with name := v }
    else if n = c!"base_path" then tplAttrs rest { a with base := v }
    else if n = c!"results" then tplAttrs rest { a with method := v }
    else if n = c!"pathchar" then tplAttrs rest { a with pathchar := v }
    else tplAttrs rest a

/-! ## Variables and lookups -/

/-- the variables of a template while it is loaded -/
structure TVars where
  vars : Dict Str Val
  vtr : Dict Str (List Str)

/-- `parse_vars`, ttp/ttp.py 1198-1207; simplification: loaded values that are no dictionaries raise `ValueError` -/
def parseVars (C : TplCtx) (x : Xml) (t : TVars) : PyM TVars := do
  match ← loadStruct C x.text (attrVals x.attrib) with
  | .dict d =>
    let vars := Dict.update t.vars (strKeys d)
    match Dict.get? x.attrib c!"name" with
    | none => pure { t with vars := vars }
    | some path =>
      if strKeys d = [] then pure { t with vars := vars }
      else pure ⟨vars, Dict.set t.vtr path ((Dict.get? t.vtr path).getD [] ++ Dict.keys (strKeys d))⟩
  | v =>
    if v.truthy then throw .valueError
    else if Dict.has x.attrib c!"name" then throw .attributeError
    else pure t

/-- all `vars` tags in order, ttp/ttp.py 1239-1240 -/
def parseVarsAll (C : TplCtx) : List Xml → TVars → PyM TVars
  | [], t => pure t
  | x :: xs, t => do
    let t' ← parseVars C x t
    parseVarsAll C xs t'

/-- `parse_lookup`, ttp/ttp.py 1209-1218; geoip2 databases are not modelled -/
def parseLookup (C : TplCtx) (x : Xml) (ls : Dict Str Val) : PyM (Dict Str Val) :=
  match Dict.get? x.attrib c!"name" with
  | none => pure ls
  | some name => do
    let v ← loadStruct C x.text (attrVals x.attrib)
    if v = .none then pure ls else pure (Dict.set ls name v)

/-- all `lookup` tags in order, ttp/ttp.py 1245-1246 -/
def parseLookups (C : TplCtx) : List Xml → Dict Str Val → PyM (Dict Str Val)
  | [], ls => pure ls
  | x :: xs, ls => do
    let ls' ← parseLookup C x ls
    parseLookups C xs ls'

/-- is the value of a variable the name of a variable function, ttp/ttp.py 1021-1023 -/
def isGetter (C : TplCtx) : Val → Bool
  | .str s => C.isVarFn s
  | _ => false

/-- the name of the function, ttp/ttp.py 1023 -/
def getterName : Val → Str
  | .str s => s
  | _ => []

/-- `get_var_functions`, ttp/ttp.py 1015-1026: the variables that remain, and the variables with functions -/
def getVarFunctions (C : TplCtx) (vars : Dict Str Val) : Dict Str Val × Dict Str Str :=
  (vars.filter (fun kv => !isGetter C kv.2),
   (vars.filter (fun kv => isGetter C kv.2)).map (fun kv => (kv.1, getterName kv.2)))

/-! ## Outputs -/

/-- first item of `get_attributes("name(...)")`, ttp/ttp.py 1556-1559, 3339-3342, 3370-3373 -/
def oneCall (ctx : LoadCtx) (name : Str) (v : Val) : PyM FnCall := do
  match ← getAttributes ctx (name ++ '(' :: (pyStr v ++ [')'])) with
  | f :: _ => pure f
  | [] => throw .indexError

/-- `O` is a text, otherwise its methods are missing -/
def asText : Val → PyM Str
  | .str s => pure s
  | _ => throw .attributeError

/-- `extract_functions` of an output, ttp/ttp.py 3344-3367: unknown functions are only logged; `functions(...)` inside gets a dictionary
instead of a text, which raises -/
def outFunctions (C : TplCtx) : List FnCall → List FnCall → PyM (List FnCall)
  | [], funcs => pure funcs
  | f :: fs, funcs =>
    if f.name = c!"functions" then throw .attributeError
    else if C.isOutFn f.name then outFunctions C fs (funcs ++ [f])
    else outFunctions C fs funcs

/-- one attribute of an output, ttp/ttp.py 3306-3393; `filename`, `format_attributes`, `path` and `headers` only concern formatters
and returners and are left out (`OutFn.tagAttr`). Simplification: a name that is not a text raises. -/
def outAttr (C : TplCtx) (o : Outputter) (name : Str) (v : Val) : PyM Outputter :=
  if lower name = c!"name" then do pure { o with name := some (← asText v) }
  else if lower name = c!"returner" then do pure { o with returners := commaList (← asText v) }
  else if lower name ∈ [c!"filename", c!"format_attributes", c!"path", c!"headers"] then pure o
  else if lower name = c!"condition" then do
    let f ← oneCall C.load c!"condition" v
    pure { o with condition := some f.args }
  else if lower name = c!"functions" then do
    let fs ← getAttributes C.load (← asText v)
    pure { o with funcs := ← outFunctions C fs o.funcs }
  else if C.isOutFn name then do
    let f ← oneCall C.load name v
    pure { o with funcs := o.funcs ++ [f] }
  else pure o

/-- all attributes in order, ttp/ttp.py 3385-3393 -/
def outAttrs (C : TplCtx) : Dict Str Val → Outputter → PyM Outputter
  | [], o => pure o
  | (n, v) :: rest, o => do
    let o' ← outAttr C o n v
    outAttrs C rest o'

/-- attributes of the tag over the default ones, `load` is text for jinja2, ttp/ttp.py 3281, 3290, 3298-3299 -/
def outBase (a : Dict Str Str) : Dict Str Val :=
  let base := Dict.update [(c!"returner", Val.str c!"self"), (c!"format", .str c!"raw"), (c!"load", .str c!"python")] (attrVals a)
  if Dict.get? base c!"format" = some (.str c!"jinja2") then Dict.set base c!"load" (.str c!"text") else base

/-- `self.attributes.update(attribs)` if the tag contains a dictionary, ttp/ttp.py 3303-3304 -/
def outMerged (base : Dict Str Val) : Val → Dict Str Val
  | .dict d => Dict.update base (strKeys d)
  | _ => base

/-- `_outputter_class.__init__` with an element, ttp/ttp.py 3278-3304 -/
def loadOutput (C : TplCtx) (x : Xml) : PyM Outputter := do
  let all := outMerged (outBase x.attrib) (← loadStruct C x.text (outBase x.attrib))
  outAttrs C all ⟨none, [], ((Dict.get? all c!"format").map pyStr).getD [], [], none, false⟩

/-- all outputs in order, ttp/ttp.py 1241-1244 -/
def loadOutputs (C : TplCtx) : List Xml → PyM (List Outputter)
  | [] => pure []
  | x :: xs => do
    let o ← loadOutput C x
    pure (o :: (← loadOutputs C xs))

/-! ## Inputs -/

/-- State of an input while it is loaded, ttp/ttp.py 1437-1450 -/
structure InSt where
  name : Str
  load : Str
  extensions : List Str
  filters : List Str
  urls : List Str
  groups : List Nat
  functions : List FnCall
  parameters : Val

/-- a text or a list of texts; simplification: anything else raises at once, not when it is used -/
def textList : Val → PyM (List Str)
  | .str s => pure [s]
  | .list xs => xs.mapM (fun v => match v with
    | .str s => pure s
    | _ => throw .typeError)
  | _ => throw .typeError

/-- names of groups: a list, or a text that is split at commas, ttp/ttp.py 1483-1486; in a list only texts can be names -/
def groupNames : Val → PyM (List Str)
  | .str s => pure (commaList s)
  | .list xs => pure (xs.filterMap (fun v => match v with
    | .str s => some s
    | _ => none))
  | _ => throw .attributeError

/-- `extract_functions` of an input, ttp/ttp.py 1530-1553; `functions` or a dictionary for `extract_commands`: the call itself is
added for the latter, `functions(...)` raises -/
def inFunctions (C : TplCtx) : List FnCall → List FnCall → PyM (List FnCall)
  | [], funcs => pure funcs
  | f :: fs, funcs =>
    if f.name = c!"functions" then throw .attributeError
    else if f.name = c!"extract_commands" || C.isInFn f.name then inFunctions C fs (funcs ++ [f])
    else inFunctions C fs funcs

/-- `extract_commands` of a text, ttp/ttp.py 1561-1569. Simplification: a dictionary that is given for it (it would become the function) is left
out, as everything else that is no text -/
def commandsCall (s : Str) : FnCall := ⟨c!"extract_commands", ((commaList s).filter (fun i => decide (i ≠ []))).map .str, []⟩

/-- Attributes of an input in order, ttp/ttp.py 1470-1595; `text` is the text of the element, `all` are all attributes, `nested` reads the
attributes that are loaded from the text, which happens when `load` is read. -/
def inAttrsWith (C : TplCtx) (tops : List TopGroup) (text : Option Str) (all : Dict Str Val) (nested : Dict Str Val → InSt → PyM InSt) :
    Dict Str Val → InSt → PyM InSt
  | [], s => pure s
  | (name, v) :: rest, s =>
    if lower name = c!"name" then do
      let t ← asText v
      inAttrsWith C tops text all nested rest { s with name := strip t }
    else if lower name = c!"load" then do
      let l ← asText v
      if strip l = c!"text" then inAttrsWith C tops text all nested rest { s with load := strip l }
      else do
        let p ← loadStruct C text all
        match p with
        | .dict d =>
          if d = [] then inAttrsWith C tops text all nested rest { s with load := strip l }
          else do
            let s' ← nested (strKeys d) { s with load := strip l, parameters := .dict d }
            inAttrsWith C tops text all nested rest s'
        | p => if p.truthy then throw .attributeError else inAttrsWith C tops text all nested rest { s with load := strip l }
    else if lower name = c!"groups" then do
      let ns ← groupNames v
      inAttrsWith C tops text all nested rest { s with groups := inputGroups tops s.name ns }
    else if lower name = c!"extensions" then do
      let xs ← textList v
      inAttrsWith C tops text all nested rest { s with extensions := xs }
    else if lower name = c!"filters" then do
      let xs ← textList v
      inAttrsWith C tops text all nested rest { s with filters := xs }
    else if lower name = c!"url" then do
      let xs ← textList v
      inAttrsWith C tops text all nested rest { s with urls := xs }
    else if lower name = c!"functions" then do
      let t ← asText v
      let fs ← getAttributes C.load t
      let fs' ← inFunctions C fs s.functions
      inAttrsWith C tops text all nested rest { s with functions := fs' }
    else if lower name = c!"extract_commands" then
      match v with
      | .str t => inAttrsWith C tops text all nested rest { s with functions := s.functions ++ [commandsCall t] }
      | _ => inAttrsWith C tops text all nested rest s
    else if C.isInFn name then do
      let f ← oneCall C.load name v
      inAttrsWith C tops text all nested rest { s with functions := s.functions ++ [f] }
    else inAttrsWith C tops text all nested rest s

/-- `get_attributes` of an input, ttp/ttp.py 1470-1595; the number bounds how often loaded attributes load again (Python raises
`RecursionError`) -/
def inAttrs (C : TplCtx) (tops : List TopGroup) : Nat → Option Str → Dict Str Val → InSt → PyM InSt
  | 0, _, _, _ => throw .runtimeError
  | n + 1, text, all, s => inAttrsWith C tops text all (fun d s => inAttrs C tops n (some []) d s) all s

/-- `re_search(filter, f)` for all filters; a filter that is no regular expression raises -/
def passesFilters (C : TplCtx) (f : Str) : List Str → PyM Bool
  | [] => pure true
  | p :: ps =>
    match C.load.re p with
    | none => throw .reError
    | some r => if (Re.search r f).isSome then passesFilters C f ps else pure false

/-- files of a directory that pass, ttp/utils/loaders.py 71-77 -/
def selectFiles (C : TplCtx) (exts filters : List Str) : List Str → PyM (List Str)
  | [] => pure []
  | f :: fs => do
    let rest ← selectFiles C exts filters fs
    if exts ≠ [] ∧ ((splitC '.' f).getLast?).getD [] ∉ exts then pure rest
    else if ← passesFilters C f filters then pure (f :: rest) else pure rest

/-- `load_files(path=..., extensions=..., filters=..., read=False)` of a text, ttp/utils/loaders.py 26-99: extensions and filters only
concern directories. -/
def loadUrl (C : TplCtx) (exts filters : List Str) (path : Str) : PyM (List Datum) :=
  let w := C.eng.world
  let inTemplates := match w.templatesDir with
    | some dir => !dir.isEmpty && w.isFile (pathJoin dir (path.take 5000))
    | none => false
  if !startsWith path c!"ttp://" && !w.isFile (path.take 5000) && !inTemplates && w.isDir (path.take 5000) then do
    let fs ← selectFiles C exts filters ((w.listdir path).filter (fun f => w.isFile (pathJoin path f)))
    pure (fs.map (fun f => ⟨.file, .str (pathJoin path f)⟩))
  else pure (loadFiles w (.str path))

/-- the data of all urls, ttp/ttp.py 1607-1615 -/
def loadUrls (C : TplCtx) (base : Str) (exts filters : List Str) : List Str → PyM (List Datum)
  | [] => pure []
  | u :: us => do
    let ds ← loadUrl C exts filters (base ++ u)
    pure (ds ++ (← loadUrls C base exts filters us))

/-- attributes of an input tag with `groups` and `load` if they are missing, ttp/ttp.py 1458-1459 -/
def inputAttribs (a : Dict Str Str) : Dict Str Val :=
  Dict.setdefault (Dict.setdefault (attrVals a) c!"groups" (.list [.str c!"all"])) c!"load" (.str c!"python")

/-- how deep loaded attributes may load again (recursion limit of Python) -/
def inputFuel : Nat := 1000

/-- `_input_class.__init__` with an element, ttp/ttp.py 1428-1462, 1597-1615: name and input -/
def loadInput (C : TplCtx) (tops : List TopGroup) (base : Str) (x : Xml) : PyM (Str × TInput) := do
  let name := strip ((Dict.get? x.attrib c!"name").getD c!"Default_Input")
  let attribs := inputAttribs x.attrib
  let s ← inAttrs C tops inputFuel x.text attribs ⟨name, c!"python", [], [], [], [], [], .dict []⟩
  let data ← match x.text with
    | some (c :: cs) => if s.load = c!"text" then pure [⟨.text, .str (c :: cs)⟩] else loadUrls C base s.extensions s.filters s.urls
    | _ => loadUrls C base s.extensions s.filters s.urls
  pure (s.name, ⟨data, s.groups, s.functions, s.parameters⟩)

/-- attributes of an input tag, ttp/ttp.py 1454-1461 -/
def inState (C : TplCtx) (tops : List TopGroup) (x : Xml) : PyM InSt :=
  inAttrs C tops inputFuel x.text (inputAttribs x.attrib)
    ⟨strip ((Dict.get? x.attrib c!"name").getD c!"Default_Input"), c!"python", [], [], [], [], [], .dict []⟩

/-- an input is added or merged with the one of its name, ttp/ttp.py 1047-1055, if there are data -/
def putInput (E : Engine) (inputs : Dict Str TInput) (name : Str) (new : TInput) : Dict Str TInput :=
  match Dict.get? inputs name with
  | some old => Dict.set inputs name { old with data := loadData old.data new.data, groups := E.setOrder (old.groups ++ new.groups) }
  | none => Dict.set inputs name new

/-- `load_data` of an input that is there already, ttp/ttp.py 1047-1049, 1597-1615: data that are not there yet are added; if the other
tag has no data, the urls of the first one are read again and all of their data are added -/
def mergeData (C : TplCtx) (base : Str) (src : Option InSt) (old new : List Datum) : PyM (List Datum) :=
  if new = [] then do
    let ds ← loadUrls C base ((src.map (·.extensions)).getD []) ((src.map (·.filters)).getD []) ((src.map (·.urls)).getD [])
    pure (old ++ ds)
  else pure (loadData old new)

/-- an input is added or merged with the one of its name, ttp/ttp.py 1047-1055; `srcs`: attributes of the first tag of each name -/
def putTag (C : TplCtx) (base : Str) (inputs : Dict Str TInput) (srcs : Dict Str InSt) (name : Str) (new : TInput) : PyM (Dict Str TInput) :=
  match Dict.get? inputs name with
  | some old => do
    let data ← mergeData C base (Dict.get? srcs name) old.data new.data
    pure (Dict.set inputs name { old with data := data, groups := C.eng.setOrder (old.groups ++ new.groups) })
  | none => pure (Dict.set inputs name new)

/-- the attributes of the first tag of a name stay with the input -/
def noteState (srcs : Dict Str InSt) (name : Str) : PyM InSt → Dict Str InSt
  | .ok s => Dict.setdefault srcs name s
  | .error _ => srcs

/-- all `input` tags in order, ttp/ttp.py 1250-1251 -/
def loadInputsFrom (C : TplCtx) (tops : List TopGroup) (base : Str) : List Xml → Dict Str TInput → Dict Str InSt → PyM (Dict Str TInput)
  | [], ins, _ => pure ins
  | x :: xs, ins, srcs => do
    let r ← loadInput C tops base x
    let ins' ← putTag C base ins srcs r.1 r.2
    loadInputsFrom C tops base xs ins' (noteState srcs r.1 (inState C tops x))

/-- all `input` tags in order, ttp/ttp.py 1250-1251 -/
def loadInputs (C : TplCtx) (tops : List TopGroup) (base : Str) (xs : List Xml) (ins : Dict Str TInput) : PyM (Dict Str TInput) :=
  loadInputsFrom C tops base xs ins []

/-- inputs that are only named by groups, ttp/ttp.py 1057-1072: the name is a path, texts are skipped -/
def groupInputs (C : TplCtx) (tops : List TopGroup) (base : Str) : List Str → Dict Str TInput → Dict Str TInput
  | [], ins => ins
  | n :: ns, ins =>
    if Dict.has ins n then groupInputs C tops base ns ins
    else
      let data := (loadFiles C.eng.world (.str (base ++ n))).filter (fun d => decide (d.kind ≠ .text))
      groupInputs C tops base ns (putInput C.eng ins n ⟨loadData [] data, inputGroups tops n [c!"all"], [], .dict []⟩)

/-! ## The template -/

/-- A loaded template with the templates inside. -/
inductive TplNode where
  | mk (tpl : Tpl) (templates : List TplNode)

/-- the template itself -/
def TplNode.tpl : TplNode → Tpl
  | .mk t _ => t
/-- `template_obj.templates` -/
def TplNode.templates : TplNode → List TplNode
  | .mk _ ts => ts

/-- top groups with the names of their outputs, ttp/ttp.py 1220-1230, 1717-1719 -/
def loadTops (ctx : LoadCtx) (pathchar : Str) (index uid : Nat) : List Xml → PyM (List (TopGroup × List Str))
  | [] => pure []
  | x :: xs => do
    let (g, uid') ← loadGroup ctx pathchar true [] none index uid x
    let gs ← loadTops ctx pathchar (index + 1) uid' xs
    pure ((⟨index, g.name, g.inputs, g.grp⟩, g.outputs) :: gs)

/-- Variables, outputs, lookups, groups and inputs in this order, then inputs named by groups, outputs of groups and variables with
functions, ttp/ttp.py 895-958, 1232-1251. The second component are the outputs of the groups. -/
def loadRest (C : TplCtx) (ovars : Dict Str Val) (a : TAttrs) (t : Tags) : PyM (Tpl × List (List (Slot Outputter))) := do
  let tv ← parseVarsAll C t.vars ⟨ovars, []⟩
  let outs ← loadOutputs C t.outputs
  let ls ← parseLookups C t.lookups []
  let tops ← loadTops { C.load with vars := tv.vars } a.pathchar 0 0 t.groups
  let gs := tops.map (·.1)
  let ins ← loadInputs C gs a.base t.inputs []
  let ins' := groupInputs C gs a.base (gs.flatMap (·.inputs)) ins
  let r := updateGroups (fun o => o.name.getD []) outs [] (tops.map (·.2))
  let vf := getVarFunctions C tv.vars
  pure (⟨a.name, gs, ins', vf.1, tv.vtr, vf.2, ls, r.1, a.method, .list []⟩, r.2.2)

mutual
/-- `load_template_xml` with the parts of `__init__` around it, ttp/ttp.py 895-958, 1401-1415; `filters` are names of templates to load -/
def loadTpl (C : TplCtx) (ovars : Dict Str Val) (a0 : TAttrs) (filters : List Str) : Xml → PyM TplNode
  | .mk _ attrib _ children _ => do
    let a := tplAttrs attrib a0
    if filters ≠ [] ∧ a.name ∉ filters then do
      let (t, _) ← loadRest C ovars a ⟨[], [], [], [], [], []⟩
      pure (.mk t [])
    else do
      let tags ← collectTags children ⟨[], [], [], [], [], []⟩
      let ts ← loadTpls C ovars a.base filters 0 children
      let (t, _) ← loadRest C ovars a tags
      pure (.mk t ts)
/-- child templates, ttp/ttp.py 1183-1196, 1237-1238: the ones that pass the filters, named by their number unless they have a name; filters
are not handed on -/
def loadTpls (C : TplCtx) (ovars : Dict Str Val) (base : Str) (filters : List Str) (index : Nat) : List Xml → PyM (List TplNode)
  | [] => pure []
  | x :: xs =>
    if tagKind x.tag ≠ .template then loadTpls C ovars base filters index xs
    else if filters ≠ [] ∧ (Dict.get? x.attrib c!"name").elim true (fun n => decide (n ∉ filters)) then
      loadTpls C ovars base filters (index + 1) xs
    else do
      let t ← if x.children.isEmpty then do
          let (t, _) ← loadRest C ovars ⟨natStr index, base, c!"per_input", c!"."⟩ ⟨[], [C.rewrap x], [], [], [], []⟩
          pure (TplNode.mk t [])
        else loadTpl C ovars ⟨natStr index, base, c!"per_input", c!"."⟩ [] x
      let ts ← loadTpls C ovars base filters (index + 1) xs
      pure (t :: ts)
end

/-- `construct_etree`, ttp/ttp.py 1375-1399, with the XML parser as a parameter (`none`: `ParseError`) -/
def constructEtree (parse : Str → Option Xml) (text : Str) : PyM Xml := do
  let wrapped := match parse (c!"<template>\n" ++ text ++ c!"\n</template>") with
    | some x => .ok x
    | none => .error .parseError
  let x ← match parse text with
    | some x => if lower x.tag = c!"template" then pure x else wrapped
    | none => wrapped
  if x.children.isEmpty then
    match parse (c!"<template><group name=\"_anonymous_\">\n" ++ text ++ c!"\n</group></template>") with
    | some y => pure y
    | none => throw .parseError
  else pure x

/-- `add_template` of a template that is given as XML without `extend` tags, ttp/ttp.py 349-380: the templates inside it, or the template
itself if there are none, are added -/
def addTemplateXml (C : TplCtx) (o : TTPObj) (basePath name : Str) (filters : List Str) (x : Xml) : PyM TTPObj := do
  let n ← loadTpl C o.vars ⟨name, basePath, c!"per_input", c!"."⟩ filters x
  pure { o with templates := o.templates ++ (if n.templates.isEmpty then [n.tpl] else n.templates.map TplNode.tpl) }

end TTP
