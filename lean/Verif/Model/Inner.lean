import Verif.Model.New
import Verif.Model.XmlText
/-!
# Templates inside of templates, as texts

Model/Tags loads the elements of the templates inside of a template directly. What the code does is modelled here: `parse_template`
(ttp/ttp.py 1183-1196) writes the element as bytes, and the new template object reads the bytes, handles `extend` tags, writes and reads the
result again (ttp/ttp.py 942-951, 1319-1399). Bytes are modelled by the text of which they are the UTF-8 encoding.
-/

namespace TTP
open Py

/-- the bytes of a character in UTF-8 -/
def utf8 (c : Char) : List Nat :=
  let n := c.toNat
  if n < 0x80 then [n]
  else if n < 0x800 then [0xC0 + n / 64, 0x80 + n % 64]
  else if n < 0x10000 then [0xE0 + n / 4096, 0x80 + n / 64 % 64, 0x80 + n % 64]
  else [0xF0 + n / 262144, 0x80 + n / 4096 % 64, 0x80 + n / 64 % 64, 0x80 + n % 64]

/-- a hexadecimal digit -/
def hexDigit (n : Nat) : Char := if n < 10 then Char.ofNat (48 + n) else Char.ofNat (87 + n)

/-- how Python shows a byte, between quotes `q` -/
def reprByte (q : Char) (b : Nat) : Str :=
  if b = 92 then c!"\\\\" else if b = q.toNat then ['\\', q] else if b = 9 then c!"\\t" else if b = 10 then c!"\\n" else if b = 13 then c!"\\r"
  else if 32 ≤ b ∧ b < 127 then [Char.ofNat b] else ['\\', 'x', hexDigit (b / 16), hexDigit (b % 16)]

/-- how Python shows the bytes of a character -/
def reprChar (q : Char) (c : Char) : Str := (utf8 c).flatMap (reprByte q)

/-- the quotes that Python shows bytes with -/
def reprQuote (s : Str) : Char := if '\'' ∈ s ∧ '"' ∉ s then '"' else '\''

/-- `"{}".format(bytes)`, ttp/ttp.py 1388, 1391, 1396 -/
def bytesRepr (s : Str) : Str := 'b' :: reprQuote s :: (s.flatMap (reprChar (reprQuote s)) ++ [reprQuote s])

/-- `construct_etree` of bytes, ttp/ttp.py 1375-1399: they are read as they are, but formatted as Python shows them -/
def constructBytes (parse : Str → Option Xml) (s : Str) : PyM Xml := do
  let wrapped := match parse (c!"<template>\n" ++ bytesRepr s ++ c!"\n</template>") with
    | some x => .ok x
    | none => .error .parseError
  let x ← match parse s with
    | some x => if lower x.tag = c!"template" then pure x else wrapped
    | none => wrapped
  if x.children.isEmpty then
    match parse (c!"<template><group name=\"_anonymous_\">\n" ++ bytesRepr s ++ c!"\n</group></template>") with
    | some y => pure y
    | none => throw .parseError
  else pure x

/-- the group that `construct_etree` makes of the bytes of a template without elements, ttp/ttp.py 1392-1398 (the first child of the tree) -/
def rewrapBytes (x : Xml) : Xml :=
  match XmlText.parse (c!"<template><group name=\"_anonymous_\">\n" ++ bytesRepr (XmlText.tostring false x) ++ c!"\n</group></template>") with
  | some y => y.children.headD y
  | none => x

/-- `handle_extend` and `construct_etree` of its result for bytes, ttp/ttp.py 942-951, 1319-1399 (bytes of an element are not empty) -/
def readBytes (w : World) (X : ExtCtx) (s : Str) : PyM Xml := do
  let x ← constructBytes X.parse s
  let r ← handleExtend w X X.limit false true [] x.children x.text
  constructEtree X.parse (X.write (.mk x.tag x.attrib r.1 r.2 x.tail))

/-- `parse_template` for the templates inside, ttp/ttp.py 1183-1196, 1237-1238; `inner` makes a template object of bytes -/
def loadInners (inner : TAttrs → Str → PyM TplNode) (base : Str) (filters : List Str) (index : Nat) : List Xml → PyM (List TplNode)
  | [] => pure []
  | x :: xs =>
    if tagKind x.tag ≠ .template then loadInners inner base filters index xs
    else if filters ≠ [] ∧ (Dict.get? x.attrib c!"name").elim true (fun n => decide (n ∉ filters)) then loadInners inner base filters (index + 1) xs
    else do
      let t ← inner ⟨natStr index, base, c!"per_input", c!"."⟩ (XmlText.tostring false x)
      let ts ← loadInners inner base filters (index + 1) xs
      pure (t :: ts)

/-- `load_template_xml` with the parts of `__init__` around it, ttp/ttp.py 895-958, 1401-1415, after the text was read -/
def loadWith (C : TplCtx) (ovars : Dict Str Val) (inner : TAttrs → Str → PyM TplNode) (a0 : TAttrs) (filters : List Str) (x : Xml) : PyM TplNode := do
  let a := tplAttrs x.attrib a0
  if filters ≠ [] ∧ a.name ∉ filters then do
    let r ← loadRest C ovars a ⟨[], [], [], [], [], []⟩
    pure (.mk r.1 [])
  else do
    let tags ← collectTags x.children ⟨[], [], [], [], [], []⟩
    let ts ← loadInners inner a.base filters 0 x.children
    let r ← loadRest C ovars a tags
    pure (.mk r.1 ts)

/-- the parser, the writer and the macro functions -/
def xmlCtx (macros : Str → Option (Str → PyM Str)) (limit : Nat) : ExtCtx := ⟨XmlText.parse, XmlText.tostring true, macros, limit⟩

/-- a template object of bytes, ttp/ttp.py 895-958, with a bound for templates inside of templates (`RecursionError`) -/
def loadBytes (C : TplCtx) (X : ExtCtx) (ovars : Dict Str Val) : Nat → TAttrs → Str → PyM TplNode
  | 0, _, _ => throw .runtimeError
  | n + 1, a0, s => do
    let x ← readBytes C.eng.world X s
    loadWith C ovars (loadBytes C X ovars n) a0 [] x

/-- a template object of a text, ttp/ttp.py 895-958 -/
def loadText (C : TplCtx) (X : ExtCtx) (ovars : Dict Str Val) (depth : Nat) (a0 : TAttrs) (filters : List Str) (text : Str) : PyM TplNode := do
  let x ← readTemplate C.eng.world X text
  loadWith C ovars (loadBytes C X ovars depth) a0 filters x

/-- the templates of the texts are added, ttp/ttp.py 366-380: the templates inside, or the template itself if there are none -/
def addAllTexts (C : TplCtx) (X : ExtCtx) (depth : Nat) (base name : Str) (filters : List Str) : List Str → TTPObj → PyM TTPObj
  | [], o => pure o
  | t :: ts, o => do
    let n ← loadText C X o.vars depth ⟨name, base, c!"per_input", c!"."⟩ filters t
    addAllTexts C X depth base name filters ts
      { o with templates := o.templates ++ (if n.templates.isEmpty then [n.tpl] else n.templates.map TplNode.tpl) }

/-- `add_template` of a text or path, ttp/ttp.py 349-380 -/
def addTemplateText (C : TplCtx) (X : ExtCtx) (depth : Nat) (o : TTPObj) (base name : Str) (filters : List Str) (arg : Str) : PyM TTPObj := do
  let ts ← loadRead C.eng.world arg
  addAllTexts C X depth base name filters ts o

end TTP
