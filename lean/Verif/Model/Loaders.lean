import Verif.Model.Json
import Verif.Model.Tags
/-!
# Loaders of structured data

Model of the loaders of `ttp/utils/loaders.py` 102-290: `text`, `json`, `csv`, `python`, `yaml`, `ini` with their attribute `include`. What
`exec` of Python text, `yaml.safe_load` and `configparser` do is not modelled (parameters of `Readers`).
-/

namespace TTP
open Py

namespace Loaders

/-- What is not modelled: floats (`repr(float(text))`), Python text (`none`: `SyntaxError`), YAML (`none`: any exception), INI (what the parser
has after reading files and then a text: sections with their items). -/
structure Readers where
  float : Str → Str
  python : Str → PyM (Option Val)
  yaml : Str → Option Val
  ini : List Str → Str → Dict Key Val

/-- the attribute `include`; `if include`, ttp/utils/loaders.py 151, 214, 237, 254, 276 -/
def includeOf (kw : Dict Str Val) : Option Str :=
  match Dict.get? kw c!"include" with
  | some (.str p) => if p = [] then none else some p
  | _ => none

/-- `_get_include_data`, ttp/utils/loaders.py 136-140 -/
def includeData (w : World) (text : Str) (path : Str) : PyM Str := do
  let files ← loadRead w path
  pure (text ++ (files.map (fun f => '\n' :: f)).flatten)

/-- the text of the tag and of the included files -/
def allText (w : World) (text : Str) (kw : Dict Str Val) : PyM Str :=
  match includeOf kw with
  | none => pure text
  | some p => includeData w text p

/-- a text argument, empty if there is none -/
def textArg (kw : Dict Str Val) (name : Str) : Str :=
  match Dict.get? kw name with
  | some (.str k) => k
  | _ => []

/-- `load_python`, ttp/utils/loaders.py 212-226 -/
def loadPython (R : Readers) (text : Str) : PyM Val :=
  if strip text = [] then pure (.dict [])
  else do
    match ← R.python text with
    | some v => pure v
    | none => pure .none

/-- `load_yaml`, ttp/utils/loaders.py 229-247 -/
def loadYaml (R : Readers) (text : Str) : Val := (R.yaml text).getD (.dict [])

/-- `if "DEFAULT" in result: if not result["DEFAULT"]: pop`, ttp/utils/loaders.py 206-208 -/
def dropEmptyDefault (d : Dict Key Val) : Dict Key Val :=
  match Dict.get? d (.s c!"DEFAULT") with
  | some v => if v.truthy then d else Dict.erase d (.s c!"DEFAULT")
  | none => d

/-- the text of a data item as `configparser` gets it -/
def datumText (d : Datum) : Str :=
  match d.val with
  | .str s => s
  | _ => []

/-- `load_ini` of Python 3, ttp/utils/loaders.py 143-209: names of files (a `ttp://` path or a missing file gives a text instead) -/
def loadIni (w : World) (R : Readers) (text : Str) (kw : Dict Str Val) : Val :=
  let files := match includeOf kw with
    | none => []
    | some p => (loadFiles w (.str p)).map datumText
  .dict (dropEmptyDefault (R.ini files text))

/-- the dispatcher of `load_struct`, ttp/utils/loaders.py 118-129 -/
def loaders (w : World) (R : Readers) (name : Str) : Option (Str → Dict Str Val → PyM Val) :=
  if name = c!"text" then some (fun text _ => pure (.str text))
  else if name = c!"json" then some (fun text kw => do pure (Json.loadJson R.float (← allText w text kw)))
  else if name = c!"csv" then some (fun text kw => do pure (.dict (← Format.loadCsv (textArg kw c!"key") (← allText w text kw))))
  else if name = c!"python" then some (fun text kw => do loadPython R (← allText w text kw))
  else if name = c!"yaml" then some (fun text kw => do pure (loadYaml R (← allText w text kw)))
  else if name = c!"ini" then some (fun text kw => pure (loadIni w R text kw))
  else none

end Loaders
end TTP
