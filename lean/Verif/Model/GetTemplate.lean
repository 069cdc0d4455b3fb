import Verif.Model.Inner
/-!
# The text of the templates of a parser

Model of `get_template` (ttp/ttp.py 807-811) and of the attribute `template` of template objects (ttp/ttp.py 933, 948).
-/

namespace TTP
open Py

/-- `handle_extend(template_text)` of a text, ttp/ttp.py 948, 1319-1373: the text that is kept and loaded -/
def keptText (w : World) (X : ExtCtx) (text : Str) : PyM Str :=
  if text = [] then throw .typeError
  else do
    let x ← constructEtree X.parse text
    let r ← handleExtend w X X.limit false true [] x.children x.text
    pure (X.write (.mk x.tag x.attrib r.1 r.2 x.tail))

/-- the same for the bytes of a template inside, ttp/ttp.py 1183-1196 -/
def keptBytes (w : World) (X : ExtCtx) (s : Str) : PyM Str := do
  let x ← constructBytes X.parse s
  let r ← handleExtend w X X.limit false true [] x.children x.text
  pure (X.write (.mk x.tag x.attrib r.1 r.2 x.tail))

/-- the texts of the template objects that `add_template` adds for a text, ttp/ttp.py 366-380, without filters: those of the templates
inside, or its own -/
def keptTexts (w : World) (X : ExtCtx) (text : Str) : PyM (List Str) := do
  let s ← keptText w X text
  let x ← constructEtree X.parse s
  let inner := x.children.filter (fun c => tagKind c.tag = .template)
  if inner.isEmpty then pure [s] else inner.mapM (fun c => keptBytes w X (XmlText.tostring false c))

/-- the texts of the template objects for several texts -/
def keptAll (w : World) (X : ExtCtx) : List Str → PyM (List Str)
  | [] => pure []
  | t :: ts => do
    let a ← keptTexts w X t
    let b ← keptAll w X ts
    pure (a ++ b)

/-- `get_template()` of a parser to which the templates of these texts were added, ttp/ttp.py 807-811 -/
def getTemplate (w : World) (X : ExtCtx) (texts : List Str) : PyM Str := do
  let l ← keptAll w X texts
  pure (join ['\n'] l)

end TTP
