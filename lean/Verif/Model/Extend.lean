import Verif.Model.Tags
/-!
# Extend tags

Model of `handle_extend` and `filter_extend` (ttp/ttp.py 1253-1373) and of `load_files(..., read=True)` (ttp/utils/loaders.py 7-99). The
XML parser and writer (Model/XmlText) and the macro functions are parameters. `extend` tags in child templates are not covered.
-/

namespace TTP
open Py

/-- What `extend` tags need from outside besides the files: the XML parser (`none`: `ParseError`), the XML writer
(`ET.tostring(...).decode()`), the macro functions by name, and a bound for the
number of `extend` tags that are handled one after the other or inside of each other (a template that extends itself ends with
`RecursionError` or does not end; here it raises `RuntimeError`). -/
structure ExtCtx where
  parse : Str → Option Xml
  write : Xml → Str
  macros : Str → Option (Str → PyM Str)
  limit : Nat

/-- `[i.strip() for i in extend_tag.get(name, "").split(",") if i.strip()]`, ttp/ttp.py 1267-1284 -/
def filterNames (a : Dict Str Str) (name : Str) : List Str :=
  ((splitC ',' ((Dict.get? a name).getD [])).map strip).filter (fun i => decide (i ≠ []))

/-- `tag_name in names` -/
def nameIn (x : Xml) (names : List Str) : Bool :=
  match Dict.get? x.attrib c!"name" with
  | some n => decide (n ∈ names)
  | none => false

/-- the loop for an `extend` tag at the top, ttp/ttp.py 1285-1305; `n` is `grp_index` -/
def filterTop (inputs tvars groups lookups outputs : List Str) : Nat → List Xml → List Xml
  | _, [] => []
  | n, t :: ts =>
    if inputs ≠ [] ∧ t.tag ∈ [c!"i", c!"in", c!"input"] then
      if nameIn t inputs then t :: filterTop inputs tvars groups lookups outputs n ts else filterTop inputs tvars groups lookups outputs n ts
    else if tvars ≠ [] ∧ t.tag ∈ [c!"v", c!"vars", c!"variables"] then
      if nameIn t tvars then t :: filterTop inputs tvars groups lookups outputs n ts else filterTop inputs tvars groups lookups outputs n ts
    else if groups ≠ [] ∧ t.tag ∈ [c!"g", c!"grp", c!"group"] then
      if nameIn t groups || decide (natStr n ∈ groups) then t :: filterTop inputs tvars groups lookups outputs (n + 1) ts
      else filterTop inputs tvars groups lookups outputs (n + 1) ts
    else if lookups ≠ [] ∧ t.tag = c!"lookup" then
      if nameIn t lookups then t :: filterTop inputs tvars groups lookups outputs n ts else filterTop inputs tvars groups lookups outputs n ts
    else if outputs ≠ [] ∧ t.tag ∈ [c!"o", c!"out", c!"output"] then
      if nameIn t outputs then t :: filterTop inputs tvars groups lookups outputs n ts else filterTop inputs tvars groups lookups outputs n ts
    else t :: filterTop inputs tvars groups lookups outputs n ts

/-- the loop for a nested `extend` tag, ttp/ttp.py 1307-1316 -/
def filterNested (groups : List Str) : Nat → List Xml → List Xml
  | _, [] => []
  | n, t :: ts =>
    if t.tag ∈ [c!"g", c!"grp", c!"group"] then
      if groups ≠ [] then
        if nameIn t groups || decide (natStr n ∈ groups) then t :: filterNested groups (n + 1) ts else filterNested groups (n + 1) ts
      else t :: filterNested groups n ts
    else if t.tag = c!"extend" then t :: filterNested groups n ts
    else filterNested groups n ts

/-- does `filter_extend` return the element itself, ttp/ttp.py 1262-1264 -/
def keepsAll (top : Bool) (a : Dict Str Str) : Bool := top && decide (a.length = 1)

/-- `filter_extend`, ttp/ttp.py 1253-1317: the elements that are left -/
def filterExtend (top : Bool) (a : Dict Str Str) (cs : List Xml) : List Xml :=
  if keepsAll top a then cs
  else if top then
    filterTop (filterNames a c!"inputs") (filterNames a c!"vars") (filterNames a c!"groups") (filterNames a c!"lookups") (filterNames a c!"outputs") 0 cs
  else filterNested (filterNames a c!"groups") 0 cs

/-- the element that the tag names, ttp/ttp.py 1335-1350 -/
def extendTree (w : World) (X : ExtCtx) (a : Dict Str Str) : PyM Xml := do
  let path := (Dict.get? a c!"template").getD []
  match ← loadRead w path with
  | [] => throw .indexError
  | content :: _ =>
    if content = path then throw .fileNotFound
    else do
      let text ← match (Dict.get? a c!"macro").bind X.macros with
        | some f => f content
        | none => pure content
      constructEtree X.parse text

/-- is the extended template a text without tags, ttp/ttp.py 1351-1355: the text of its only element -/
def anonymousText (e : Xml) : Option (Option Str) :=
  match e.children with
  | [g] => if Dict.get? g.attrib c!"name" = some c!"_anonymous_" then some g.text else none
  | _ => none

/-- `template_ET.text += extend_ET[0].text`, ttp/ttp.py 1356: a list has no text, `None` cannot be added -/
def addText (isList : Bool) (a b : Option Str) : PyM (Option Str) :=
  if isList then throw .attributeError
  else match a, b with
    | some s, some t => pure (some (s ++ t))
    | _, _ => throw .typeError

mutual
/-- `handle_extend` for the elements of a group, ttp/ttp.py 1368-1370; `ext` is what is done for an `extend` tag -/
def extendGroup (ext : Bool → Bool → List Xml → Xml → List Xml → Option Str → PyM (Option Str × List Xml)) : Xml → PyM Xml
  | .mk tag a t cs tl => do
    let (t', cs') ← extendLoop ext false false [] cs t
    pure (.mk tag a t' cs' tl)
/-- The loop of `handle_extend` over an element or a list, ttp/ttp.py 1332-1370, without what is done for an `extend` tag, which is `ext`:
`done` are the elements before the position of the loop, the last list those from this position on. The result are the text and the
elements. -/
def extendLoop (ext : Bool → Bool → List Xml → Xml → List Xml → Option Str → PyM (Option Str × List Xml)) :
    Bool → Bool → List Xml → List Xml → Option Str → PyM (Option Str × List Xml)
  | _, _, done, [], text => pure (text, done)
  | isList, top, done, x :: rest, text =>
    if x.tag = c!"extend" then ext isList top done x rest text
    else if x.tag = c!"group" then do
      let x' ← extendGroup ext x
      extendLoop ext isList top (done ++ [x']) rest text
    else extendLoop ext isList top (done ++ [x]) rest text
end

/-- The loop goes on after the position of the `extend` tag, whatever stands there now, ttp/ttp.py 1333, 1356-1367. -/
def stepOver (loop : List Xml → List Xml → Option Str → PyM (Option Str × List Xml)) (done : List Xml) (now : List Xml) (text : Option Str) :
    PyM (Option Str × List Xml) :=
  match now with
  | [] => pure (text, done)
  | x :: xs => loop (done ++ [x]) xs text

/-- `handle_extend` for an element or a list, ttp/ttp.py 1319-1370, with the bound for the number of tags; the text of the extended template
itself is not used -/
def handleExtend (w : World) (X : ExtCtx) : Nat → Bool → Bool → List Xml → List Xml → Option Str → PyM (Option Str × List Xml)
  | 0 => extendLoop (fun _ _ _ _ _ _ => throw .runtimeError)
  | n + 1 => extendLoop (fun isList top done x rest text => do
      let e ← extendTree w X x.attrib
      match anonymousText e with
      | some t => do
        let text' ← addText isList text t
        stepOver (handleExtend w X n isList top) done rest text'
      | none => do
        let r ← handleExtend w X n (!keepsAll top x.attrib) false [] (filterExtend top x.attrib e.children) e.text
        stepOver (handleExtend w X n isList top) done (r.2 ++ rest) text)

/-- the text of a template is read, its `extend` tags are handled, and the result is written and read again, ttp/ttp.py 942-951, 1319-1399; for an
empty text there is no element to iterate over -/
def readTemplate (w : World) (X : ExtCtx) (text : Str) : PyM Xml :=
  if text = [] then throw .typeError
  else do
    let x ← constructEtree X.parse text
    let r ← handleExtend w X X.limit false true [] x.children x.text
    constructEtree X.parse (X.write (.mk x.tag x.attrib r.1 r.2 x.tail))

end TTP
