import Verif.Model.Extend
/-!
# Making a parser

Model of `ttp.__init__` (ttp/ttp.py 219-250) and `add_template` (349-380) from the argument of the user: text of a template, path of a
file or of a directory, TTP templates path.
-/

namespace TTP
open Py

/-- the texts one after the other, ttp/ttp.py 368-380 -/
def addTexts (C : TplCtx) (X : ExtCtx) (base name : Str) (filters : List Str) : List Str → TTPObj → PyM TTPObj
  | [], o => pure o
  | t :: ts, o => do
    let x ← readTemplate C.eng.world X t
    let o' ← addTemplateXml C o base name filters x
    addTexts C X base name filters ts o'

/-- `add_template`, ttp/ttp.py 349-380; something that is no text is given to the XML parser, which raises `TypeError` -/
def addTemplateAny (C : TplCtx) (X : ExtCtx) (o : TTPObj) (base name : Str) (filters : List Str) : Val → PyM TTPObj
  | .str s => do
    let ts ← loadRead C.eng.world s
    addTexts C X base name filters ts o
  | _ => throw .typeError

/-- `ttp(data=..., template=..., base_path=..., vars=...)`, ttp/ttp.py 219-250 -/
def newTTP (C : TplCtx) (X : ExtCtx) (data template : Val) (base : Str) (vars : Dict Str Val) : PyM TTPObj := do
  let o ← if template = .str [] then pure ⟨[], vars, [], []⟩
    else addTemplateAny C X ⟨[], vars, [], []⟩ base c!"_root_template_" [] template
  if data = .str [] then pure o else pure (addInput C.eng o data c!"Default_Input" c!"_all_" [])

end TTP
