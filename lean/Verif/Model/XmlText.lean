import Verif.Model.Extend
/-!
# XML texts

Model of what `ET.XML` and `ET.tostring` (Python's `xml.etree.ElementTree` on the parser expat) do with texts, as they are used in
ttp/ttp.py 1190, 1373, 1384-1398. Simplifications: names are of ASCII letters, digits, `_`, `-` and `.` (no name spaces: no colons, no
attribute `xmlns`), no XML declaration and no `DOCTYPE`; a text with one of those cannot be read here. No limits of memory or depth.
-/

namespace TTP
open Py

namespace XmlText

/-! ## Characters -/

/-- characters that XML allows (`Char` of XML 1.0, `BT_NONXML` and `utf8_isInvalid3` of expat) -/
def isChar (c : Char) : Bool :=
  decide (c.toNat = 9 ∨ c.toNat = 10 ∨ c.toNat = 13 ∨ (32 ≤ c.toNat ∧ c.toNat ≠ 0xFFFE ∧ c.toNat ≠ 0xFFFF))

/-- line ends: XML 1.0 section 2.11, `BT_CR` in xmltok_impl.c of expat -/
def unixLines : Str → Str
  | [] => []
  | c :: s =>
    if c = '\r' then
      match s with
      | [] => ['\n']
      | d :: t => if d = '\n' then '\n' :: unixLines t else '\n' :: unixLines (d :: t)
    else c :: unixLines s

/-- white space after line ends are replaced, `BT_S` and `BT_LF` of expat -/
def isWs (c : Char) : Bool := decide (c = ' ' ∨ c = '\t' ∨ c = '\n')

/-- without white space in front -/
def skipWs (s : Str) : Str := s.dropWhile isWs

/-- first character of a name; simplification: ASCII only -/
def isNameStart (c : Char) : Bool :=
  decide (('a'.toNat ≤ c.toNat ∧ c.toNat ≤ 'z'.toNat) ∨ ('A'.toNat ≤ c.toNat ∧ c.toNat ≤ 'Z'.toNat) ∨ c = '_')

/-- other characters of a name; simplification: ASCII only, no colon -/
def isNameChar (c : Char) : Bool :=
  isNameStart c || decide (('0'.toNat ≤ c.toNat ∧ c.toNat ≤ '9'.toNat) ∨ c = '-' ∨ c = '.')

/-- a name in front and the rest -/
def name : Str → Option (Str × Str)
  | [] => none
  | c :: r => if isNameStart c then some (c :: r.takeWhile isNameChar, r.dropWhile isNameChar) else none

/-- `step` again and again until nothing is left; `n` bounds the number of times -/
def many {α : Type} (step : Str → Option (α × Str)) : Nat → Str → Option (List α)
  | _, [] => some []
  | 0, _ :: _ => none
  | n + 1, c :: s =>
    match step (c :: s) with
    | none => none
    | some (a, r) => (many step n r).map (a :: ·)

/-- the text before the first `e`, and what follows it -/
def upTo (e : Str) : Str → Option (Str × Str)
  | [] => if e = [] then some ([], []) else none
  | c :: s => if startsWith (c :: s) e then some ([], (c :: s).drop e.length) else (upTo e s).map (fun p => (c :: p.1, p.2))

/-! ## References -/

/-- the names every document knows -/
def entities : Dict Str Char := [(c!"lt", '<'), (c!"gt", '>'), (c!"amp", '&'), (c!"quot", '"'), (c!"apos", '\'')]

/-- value of a digit -/
def digit (hex : Bool) (c : Char) : Option Nat :=
  if '0'.toNat ≤ c.toNat ∧ c.toNat ≤ '9'.toNat then some (c.toNat - '0'.toNat)
  else if hex = true ∧ 'a'.toNat ≤ c.toNat ∧ c.toNat ≤ 'f'.toNat then some (c.toNat - 'a'.toNat + 10)
  else if hex = true ∧ 'A'.toNat ≤ c.toNat ∧ c.toNat ≤ 'F'.toNat then some (c.toNat - 'A'.toNat + 10)
  else none

/-- value of digits, `charRefNumber` of expat; `acc` is the value of those before -/
def number (hex : Bool) (acc : Nat) : Str → Option Nat
  | [] => some acc
  | c :: s =>
    match digit hex c with
    | none => none
    | some d => number hex (acc * (if hex then 16 else 10) + d) s

/-- the character with a number, `checkCharRefNumber` of expat -/
def charOf (n : Nat) : Option Char :=
  if (Char.ofNat n).toNat = n ∧ isChar (Char.ofNat n) = true then some (Char.ofNat n) else none

/-- the character with a number that is written after `#`, `scanCharRef` of expat -/
def numRef : Str → Option Char
  | [] => none
  | c :: s =>
    if c = 'x' then if s.isEmpty then none else (number true 0 s).bind charOf
    else (number false 0 (c :: s)).bind charOf

/-- the character that a reference stands for; `b` is what is between `&` and `;` -/
def refChar (b : Str) : Option Char :=
  match Dict.get? entities b with
  | some c => some c
  | none =>
    match b with
    | [] => none
    | c :: s => if c = '#' then numRef s else none

/-- a reference after its `&` -/
def reference (s : Str) : Option (Char × Str) :=
  match s.dropWhile (fun c => c ≠ ';') with
  | [] => none
  | _ :: r => (refChar (s.takeWhile (fun c => c ≠ ';'))).map (fun c => (c, r))

/-! ## Tags -/

/-- one character of the value of an attribute, `normalizeAttributeValue` of expat -/
def valueStep : Str → Option (Char × Str)
  | [] => none
  | c :: s =>
    if c = '&' then reference s
    else if c = '<' then none
    else if isWs c then some (' ', s)
    else some (c, s)

/-- the value of an attribute in quotes, `scanAtts` of expat -/
def quotedValue : Str → Option (Str × Str)
  | [] => none
  | q :: s =>
    if q = '"' ∨ q = '\'' then
      match s.dropWhile (fun c => c ≠ q) with
      | [] => none
      | _ :: r => (many valueStep (s.takeWhile (fun c => c ≠ q)).length (s.takeWhile (fun c => c ≠ q))).map (fun v => (v, r))
    else none

/-- the text after a character -/
def after (c : Char) : Str → Option Str
  | [] => none
  | d :: s => if d = c then some s else none

/-- one attribute, without white space in front -/
def attr (s : Str) : Option ((Str × Str) × Str) :=
  match name s with
  | none => none
  | some (n, r) => (after '=' (skipWs r)).bind (fun r1 => (quotedValue (skipWs r1)).map (fun p => ((n, p.1), p.2)))

/-- attributes, each after white space, and what follows them without white space in front; `n` bounds their number -/
def attrs : Nat → Str → Option (List (Str × Str) × Str)
  | 0, _ => none
  | n + 1, s =>
    match skipWs s with
    | [] => none
    | c :: r =>
      if c = '>' ∨ c = '/' then some ([], c :: r)
      else if skipWs s = s then none
      else
        match attr (c :: r) with
        | none => none
        | some (a, r1) => (attrs n r1).map (fun p => (a :: p.1, p.2))

/-- parts of a text: start of an element, element without content, end of an element, a character as it is, text that is written in
another way (reference, CDATA section), and what leaves nothing (comment, processing instruction) -/
inductive Tok where
  | start (n : Str) (a : List (Str × Str))
  | empty (n : Str) (a : List (Str × Str))
  | close (n : Str)
  | char (c : Char)
  | data (s : Str)
  | skip
  deriving DecidableEq

/-- the end of a tag: `>` or `/>` -/
def tagEnd (n : Str) (a : List (Str × Str)) : Str → Option (Tok × Str)
  | [] => none
  | c :: s => if c = '>' then some (.start n a, s) else (after '>' s).map (fun r => (.empty n a, r))

/-- a tag after `<`: `storeAtts` and `doContent` of expat; two attributes with the same name are an error -/
def openTag (s : Str) : Option (Tok × Str) :=
  match name s with
  | none => none
  | some (n, r) =>
    match attrs (r.length + 1) r with
    | none => none
    | some (a, r1) => if (a.map Prod.fst).Nodup ∧ c!"xmlns" ∉ a.map Prod.fst then tagEnd n a r1 else none

/-- a tag after `</` -/
def closeTag (s : Str) : Option (Tok × Str) :=
  match name s with
  | none => none
  | some (n, r) => (after '>' (skipWs r)).map (fun r1 => (.close n, r1))

/-- a comment after `<!--`; two hyphens can only be at its end -/
def comment (s : Str) : Option (Tok × Str) := (upTo c!"--" s).bind (fun p => (after '>' p.2).map (fun r => (.skip, r)))

/-- a processing instruction after `<?`, `scanPi` and `checkPiTarget` of expat -/
def instruction (s : Str) : Option (Tok × Str) :=
  match name s with
  | none => none
  | some (n, r) =>
    if lower n = c!"xml" then none
    else if startsWith r c!"?>" then some (.skip, r.drop 2)
    else if skipWs r = r then none
    else (upTo c!"?>" r).map (fun p => (.skip, p.2))

/-- the first part of a text, `contentTok` of expat -/
def token : Str → Option (Tok × Str)
  | [] => none
  | c :: s =>
    if c = '<' then
      if startsWith s c!"/" then closeTag (s.drop 1)
      else if startsWith s c!"!--" then comment (s.drop 3)
      else if startsWith s c!"![CDATA[" then (upTo c!"]]>" (s.drop 8)).map (fun p => (.data p.1, p.2))
      else if startsWith s c!"?" then instruction (s.drop 1)
      else openTag s
    else if c = '&' then (reference s).map (fun p => (.data [p.1], p.2))
    else if c = ']' ∧ startsWith s c!"]>" = true then none
    else some (.char c, s)

/-- all parts of a text -/
def tokens (s : Str) : Option (List Tok) := many token s.length s

/-! ## Elements -/

/-- an element that has an end but no start yet: its name, the text until the first element in it, and those elements -/
structure Frame where
  name : Str
  text : Str
  children : List Xml

/-- what is known when the end of the text is read: elements that go on before it, innermost first, and the element that is complete -/
structure Build where
  open_ : List Frame
  root : Option Xml

/-- no text is `None`, `TreeBuilder._flush` of ElementTree -/
def textOpt (s : Str) : Option Str := if s = [] then none else some s

/-- an element is complete; there is only one outside of all others -/
def addElem (b : Build) (n : Str) (a : List (Str × Str)) (t : Str) (cs : List Xml) : Option Build :=
  match b.open_ with
  | f :: fs => some { b with open_ := { f with text := [], children := .mk n a (textOpt t) cs (textOpt f.text) :: f.children } :: fs }
  | [] => if b.root.isNone then some ⟨[], some (.mk n a (textOpt t) cs none)⟩ else none

/-- text is only inside of elements -/
def addText (b : Build) (s : Str) : Option Build :=
  match b.open_ with
  | f :: fs => some { b with open_ := { f with text := s ++ f.text } :: fs }
  | [] => none

/-- A part in front of what is read. `TreeBuilder` of ElementTree with the checks of expat, but from the end to the start. -/
def build (t : Tok) (b : Build) : Option Build :=
  match t with
  | .skip => some b
  | .data s => addText b s
  | .char c => if b.open_.isEmpty ∧ isWs c = true then some b else addText b [c]
  | .close n => some { b with open_ := ⟨n, [], []⟩ :: b.open_ }
  | .empty n a => addElem b n a [] []
  | .start n a =>
    match b.open_ with
    | f :: fs => if f.name = n then addElem { b with open_ := fs } n a f.text f.children else none
    | [] => none

/-- all parts -/
def buildAll : List Tok → Option Build
  | [] => some ⟨[], none⟩
  | t :: ts => (buildAll ts).bind (build t)

/-- the byte order mark in front of a text is left out -/
def dropBom : Str → Str
  | [] => []
  | c :: s => if c.toNat = 0xFEFF then s else c :: s

/-- the element of a text after line ends are replaced -/
def element (s : Str) : Option Xml :=
  match (tokens s).bind buildAll with
  | some ⟨[], some x⟩ => some x
  | _ => none

/-- `ET.XML(text)`, as in ttp/ttp.py 1384, 1387, 1391, 1394; `none` is `ParseError` -/
def parse (s : Str) : Option Xml := if s.all isChar = true then element (unixLines (dropBom s)) else none

/-! ## Writing -/

/-- `_escape_cdata` of ElementTree -/
def escText (c : Char) : Str :=
  if c = '&' then c!"&amp;" else if c = '<' then c!"&lt;" else if c = '>' then c!"&gt;" else [c]

/-- `_escape_attrib` of ElementTree -/
def escAttr (c : Char) : Str :=
  if c = '&' then c!"&amp;" else if c = '<' then c!"&lt;" else if c = '>' then c!"&gt;" else if c = '"' then c!"&quot;"
  else if c = '\r' then c!"&#13;" else if c = '\n' then c!"&#10;" else if c = '\t' then c!"&#09;" else [c]

/-- the encoding: characters of other than ASCII as references (`us-ascii` with `xmlcharrefreplace`, ttp/ttp.py 1373), or as they
are (`UTF-8`, ttp/ttp.py 1190) -/
def encode (ascii : Bool) (s : Str) : Str :=
  s.flatMap (fun c => if ascii = true ∧ 128 ≤ c.toNat then c!"&#" ++ (natStr c.toNat ++ [';']) else [c])

/-- attributes of a start tag -/
def attrText (a : Str × Str) : Str := ' ' :: (a.1 ++ (c!"=\"" ++ (a.2.flatMap escAttr ++ ['"'])))

mutual
/-- `_serialize_xml` of ElementTree: an element with what follows it -/
def serialize : Xml → Str
  | .mk n a t cs tl =>
    '<' :: (n ++ (a.flatMap attrText ++
      ((if (t.getD []).isEmpty ∧ cs.isEmpty then c!" />"
        else '>' :: ((t.getD []).flatMap escText ++ (serializeAll cs ++ (c!"</" ++ (n ++ ['>']))))) ++
       (tl.getD []).flatMap escText)))
/-- elements one after the other -/
def serializeAll : List Xml → Str
  | [] => []
  | x :: xs => serialize x ++ serializeAll xs
end

/-- `ET.tostring`; ttp/ttp.py 1373 (`ascii`), 1190 (not `ascii`) -/
def tostring (ascii : Bool) (x : Xml) : Str := encode ascii (serialize x)

end XmlText

end TTP
