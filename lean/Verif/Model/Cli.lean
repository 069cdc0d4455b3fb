import Verif.Model.New
import Verif.Model.Json
/-!
# The command line

Model of `cli_tool`, ttp/ttp.py 3487-3716: what is done with the options. Reading of the options by `argparse`, logging and the messages of
`--Timing` are not modelled.
-/

namespace TTP
open Py

namespace Cli

/-- the options, ttp/ttp.py 3498-3510, 3627-3639; missing ones are empty -/
structure Options where
  data : Str
  dataPrefix : Str
  template : Str
  templateName : Str
  outputter : Str
  outTemplate : Str
  structure_ : Str
  vars : Str
  one : Bool
  multi : Bool

/-- What the tool needs besides: the formatters other than `json` and `raw` by name, `load_struct(text, load="python")`, floats in JSON,
the size from which several processes are used (ttp/ttp.py 439-449), and the parse in several processes. -/
structure Tool where
  others : Str → Option (Val → PyM Val)
  python : Str → PyM Val
  float : Str → Str
  threshold : Nat
  multi : TTPObj → PyM TTPObj

/-- texts as keys of the variables; numbers as keys cannot come from JSON -/
def strKey : Key × Val → Str × Val
  | (.s k, v) => (k, v)
  | (.i n, v) => (intStr n, v)

/-- `VARS.replace("'", '"')`, ttp/ttp.py 3668 -/
def doubleQuotes (s : Str) : Str := s.map (fun c => if c = '\'' then '"' else c)

/-- the variables, ttp/ttp.py 3664-3676 -/
def readVars (T : Tool) (s : Str) : PyM (Dict Str Val) :=
  if s = [] then pure []
  else match Json.loads T.float (doubleQuotes s) with
    | none => throw .valueError
    | some (.dict d) => pure (d.map strKey)
    | some _ => throw .systemExit

/-- `ttp_template[TEMPLATE_NAME]`, ttp/ttp.py 3687 -/
def pickName (name : Str) : Val → PyM Val
  | .dict d => match Dict.get? d (.s name) with
    | some v => pure v
    | none => throw .keyError
  | _ => throw .typeError

/-- the template of the texts that were read, ttp/ttp.py 3682-3687 -/
def chosen (T : Tool) (name : Str) : List Str → PyM Val
  | [] => throw .indexError
  | text :: _ => if name = [] then pure (.str text) else do pickName name (← T.python text)

/-- the template, ttp/ttp.py 3681-3687: without an option the name `ttp_template` has no value -/
def readTpl (C : TplCtx) (T : Tool) (a : Options) : PyM Val :=
  if a.template = [] then throw .unboundLocal
  else do
    let texts ← loadRead C.eng.world a.template
    chosen T a.templateName texts

/-- `parse(one=ONE, multi=MULTI)`, ttp/ttp.py 3696, 415-451 -/
def parse (C : TplCtx) (T : Tool) (a : Options) (o : TTPObj) : PyM TTPObj :=
  match parseMode T.threshold (dataSize C.eng.world o).1 (dataSize C.eng.world o).2 a.one a.multi with
  | .one => parseOne C.eng o
  | .multi => T.multi o
  | .exit => throw .systemExit

/-- the formatters of the tool, ttp/ttp.py 3641 -/
def supported : List Str := [c!"json", c!"yaml", c!"raw", c!"pprint", []]

/-- `_ttp_["formatters"][name]`, ttp/ttp.py 3713, ttp/formatters/json_formatter.py, raw_formatter.py -/
def formatter (T : Tool) (name : Str) : PyM (Val → PyM Val) :=
  if name = c!"json" then pure (fun v => (Json.jsonFormatter v).map .str)
  else if name = c!"raw" then pure (fun v => pure v)
  else match T.others name with
    | some f => pure f
    | none => throw .keyError

/-- the name of the formatter, ttp/ttp.py 3705-3711 -/
def outputter (s : Str) : Str := if lower s ∈ supported then s else c!"json"

/-- the names of the templates, ttp/ttp.py 3701-3704 -/
def outTemplates (s : Str) : List Str := if s = [] then [] else (splitC ',' s).map strip

/-- `result(structure=STRUCTURE, templates=OUT_TEMPLATE)`, ttp/ttp.py 619-669, 3712 -/
def results (o : TTPObj) (shape : Str) (names : List Str) : Val :=
  if lower shape = c!"list" then .list (resultList o names)
  else if lower shape = c!"dictionary" then .dict ((resultDict o names).map (fun kv => (.s kv.1, kv.2)))
  else if lower shape = c!"flat_list" then .list (resultFlat o names)
  else .none

/-- what is printed, ttp/ttp.py 3699-3713: nothing without an outputter -/
def output (T : Tool) (a : Options) (o : TTPObj) : PyM (Option Val) :=
  if a.outputter = [] then pure none
  else do
    let f ← formatter T (outputter a.outputter)
    let v ← f (results o a.structure_ (outTemplates a.outTemplate))
    pure (some v)

/-- the data, ttp/ttp.py 3690-3691 with the default names of `set_input`, 288-294: only the template `_root_template_` gets them -/
def giveData (C : TplCtx) (a : Options) (o : TTPObj) : TTPObj :=
  if a.data = [] then o else setInput C.eng o (.str a.data) c!"Default_Input" c!"_root_template_" []

/-- `cli_tool`, ttp/ttp.py 3487-3716: the object after the run, and what is printed -/
def run (C : TplCtx) (X : ExtCtx) (T : Tool) (a : Options) : PyM (TTPObj × Option Val) := do
  let vars ← readVars T a.vars
  let o ← newTTP C X (.str []) (.str []) a.dataPrefix vars
  let t ← readTpl C T a
  let o ← addTemplateAny C X o a.dataPrefix c!"_root_template_" [] t
  let o ← parse C T a (giveData C a o)
  let v ← output T a o
  pure (o, v)

end Cli
end TTP
