import Verif.Spec.Json
import Verif.Spec.Template
/-!
# Specification: XML texts (XML 1.0 without name spaces, declarations and document types; names of ASCII characters)
-/

namespace Spec
open Py TTP

/-- a character that XML allows -/
def XChar (c : Char) : Prop := c = '\t' ∨ c = '\n' ∨ c = '\r' ∨ (32 ≤ c.toNat ∧ c.toNat ≠ 0xFFFE ∧ c.toNat ≠ 0xFFFF)

/-- the same text with `\n` for every line end `\r\n` or `\r` -/
inductive UnixLines : Str → Str → Prop
  | nil : UnixLines [] []
  | crlf {s t : Str} : UnixLines s t → UnixLines ('\r' :: '\n' :: s) ('\n' :: t)
  | cr {s t : Str} : (∀ r, s ≠ '\n' :: r) → UnixLines s t → UnixLines ('\r' :: s) ('\n' :: t)
  | other (c : Char) {s t : Str} : c ≠ '\r' → UnixLines s t → UnixLines (c :: s) (c :: t)

/-- white space between the parts of tags (there are no `\r`) -/
def XBlank (s : Str) : Prop := ∀ c ∈ s, c = ' ' ∨ c = '\t' ∨ c = '\n'

/-- an ASCII letter or `_` -/
def XNameStart (c : Char) : Prop := ('a' ≤ c ∧ c ≤ 'z') ∨ ('A' ≤ c ∧ c ≤ 'Z') ∨ c = '_'

/-- a name of ASCII letters, digits, `_`, `-` and `.`, that does not begin with a digit, `-` or `.` -/
def XName (n : Str) : Prop := ∃ c r, n = c :: r ∧ XNameStart c ∧ ∀ d ∈ r, XNameStart d ∨ JDigit d ∨ d = '-' ∨ d = '.'

/-- `e` is nowhere in `s` -/
def Lacks (e s : Str) : Prop := ∀ a b, s ≠ a ++ (e ++ b)

/-- the number that hexadecimal digits denote -/
inductive Hexadecimal : Str → Nat → Prop
  | one {c : Char} {n : Nat} : Hex1 c n → Hexadecimal [c] n
  | snoc {s : Str} {c : Char} {m n : Nat} : Hexadecimal s m → Hex1 c n → Hexadecimal (s ++ [c]) (m * 16 + n)

/-- the characters with a name -/
def xmlNames : List (Str × Char) := [(c!"lt", '<'), (c!"gt", '>'), (c!"amp", '&'), (c!"quot", '"'), (c!"apos", '\'')]

/-- a reference to a character by name or number -/
inductive XRef : Str → Char → Prop
  | named {n : Str} {c : Char} : (n, c) ∈ xmlNames → XRef ('&' :: (n ++ [';'])) c
  | decimal {ds : Str} {c : Char} : ds ≠ [] → (∀ d ∈ ds, JDigit d) → decimal ds = c.toNat → XChar c → XRef ('&' :: '#' :: (ds ++ [';'])) c
  | hex {hs : Str} {c : Char} : Hexadecimal hs c.toNat → XChar c → XRef ('&' :: '#' :: 'x' :: (hs ++ [';'])) c

/-- the value that a text between quotes `q` denotes -/
inductive XValue (q : Char) : Str → Str → Prop
  | nil : XValue q [] []
  | blank (c : Char) {t v : Str} : XBlank [c] → XValue q t v → XValue q (c :: t) (' ' :: v)
  | plain (c : Char) {t v : Str} : ¬ XBlank [c] → c ≠ q → c ≠ '<' → c ≠ '&' → XValue q t v → XValue q (c :: t) (c :: v)
  | ref {r : Str} {c : Char} {t v : Str} : XRef r c → XValue q t v → XValue q (r ++ t) (c :: v)

/-- attributes, each with white space before it -/
inductive XAttrs : Str → List (Str × Str) → Prop
  | nil : XAttrs [] []
  | cons {w n a b t s v : Str} {q : Char} {as : List (Str × Str)} : XBlank w → w ≠ [] → XName n → XBlank a → XBlank b → (q = '"' ∨ q = '\'') →
      XValue q t v → XAttrs s as → XAttrs (w ++ (n ++ (a ++ ('=' :: (b ++ (q :: (t ++ (q :: s)))))))) ((n, v) :: as)

/-- a name and attributes with different names: what stands between the brackets of a tag -/
inductive XTag : Str → Str → List (Str × Str) → Prop
  | mk {n s w : Str} {as : List (Str × Str)} : XName n → XAttrs s as → (as.map Prod.fst).Nodup → c!"xmlns" ∉ as.map Prod.fst → XBlank w →
      XTag (n ++ (s ++ w)) n as

/-- comments and processing instructions -/
inductive XNote : Str → Prop
  | comment {t : Str} : Lacks c!"--" (t ++ ['-']) → XNote (c!"<!--" ++ (t ++ c!"-->"))
  | instruction {n : Str} : XName n → lower n ≠ c!"xml" → XNote (c!"<?" ++ (n ++ c!"?>"))
  | instructionText {n t : Str} {c : Char} : XName n → lower n ≠ c!"xml" → XBlank [c] → Lacks c!"?>" t →
      XNote (c!"<?" ++ (n ++ (c :: (t ++ c!"?>"))))

/-- text, or none -/
def someText (s : Str) : Option Str := if s = [] then none else some s

mutual
/-- `XElement t n a v cs`: `t` is an element with name `n`, attributes `a`, text `v` before its first child, and children `cs` -/
inductive XElement : Str → Str → List (Str × Str) → Str → List Xml → Prop
  | empty {t n : Str} {a : List (Str × Str)} : XTag t n a → XElement ('<' :: (t ++ c!"/>")) n a [] []
  | full {t n s v w : Str} {a : List (Str × Str)} {cs : List Xml} : XTag t n a → XContent s v cs → XBlank w →
      XElement ('<' :: (t ++ ('>' :: (s ++ (c!"</" ++ (n ++ (w ++ ['>']))))))) n a v cs
/-- `XContent s v cs`: `s` is content with the text `v` before the first element, and elements `cs`, each with the text after it as its tail -/
inductive XContent : Str → Str → List Xml → Prop
  | nil : XContent [] [] []
  | char (c : Char) {s v : Str} {cs : List Xml} : c ≠ '<' → c ≠ '&' → (∀ r, c :: s ≠ ']' :: ']' :: '>' :: r) → XContent s v cs →
      XContent (c :: s) (c :: v) cs
  | ref {r s v : Str} {c : Char} {cs : List Xml} : XRef r c → XContent s v cs → XContent (r ++ s) (c :: v) cs
  | cdata {t s v : Str} {cs : List Xml} : Lacks c!"]]>" t → XContent s v cs → XContent (c!"<![CDATA[" ++ (t ++ (c!"]]>" ++ s))) (t ++ v) cs
  | note {t s v : Str} {cs : List Xml} : XNote t → XContent s v cs → XContent (t ++ s) v cs
  | element {t s n v u : Str} {a : List (Str × Str)} {ks cs : List Xml} : XElement t n a u ks → XContent s v cs →
      XContent (t ++ s) [] (.mk n a (someText u) ks (someText v) :: cs)
end

/-- white space, comments and processing instructions around the element of a document -/
inductive XMisc : Str → Prop
  | nil : XMisc []
  | blank (c : Char) {s : Str} : XBlank [c] → XMisc s → XMisc (c :: s)
  | note {t s : Str} : XNote t → XMisc s → XMisc (t ++ s)

/-- a document: characters that XML allows, maybe a byte order mark, one element and nothing of meaning around it -/
inductive XDocument : Str → Xml → Prop
  | mk {bom s a t b n v : Str} {at_ : List (Str × Str)} {cs : List Xml} : (∀ c ∈ bom ++ s, XChar c) → (bom = [] ∨ ∃ c, bom = [c] ∧ c.toNat = 0xFEFF) →
      UnixLines s (a ++ (t ++ b)) → XMisc a → XElement t n at_ v cs → XMisc b →
      XDocument (bom ++ s) (.mk n at_ (someText v) cs none)

/-- a text of an element is not empty and has only characters that XML allows -/
def ProperText (t : Option Str) : Prop := t ≠ some [] ∧ ∀ s, t = some s → ∀ c ∈ s, XChar c

mutual
/-- an element that can be written: names, attributes with different names, allowed characters -/
inductive ProperXml : Xml → Prop
  | mk {n : Str} {a : List (Str × Str)} {t tl : Option Str} {cs : List Xml} : XName n → (∀ p ∈ a, XName p.1 ∧ ∀ c ∈ p.2, XChar c) → (a.map Prod.fst).Nodup →
      c!"xmlns" ∉ a.map Prod.fst → ProperText t → ProperXmls cs → ProperText tl → ProperXml (.mk n a t cs tl)
/-- elements that can be written -/
inductive ProperXmls : List Xml → Prop
  | nil : ProperXmls []
  | cons {x : Xml} {xs : List Xml} : ProperXml x → ProperXmls xs → ProperXmls (x :: xs)
end

/-- a text without carriage returns -/
def NoReturnText (t : Option Str) : Prop := ∀ s, t = some s → '\r' ∉ s

mutual
/-- no text in the element or after its children has a carriage return (attributes can) -/
inductive NoReturns : Xml → Prop
  | mk {n : Str} {a : List (Str × Str)} {t tl : Option Str} {cs : List Xml} : NoReturnText t → NoReturnsAll cs → NoReturnText tl →
      NoReturns (.mk n a t cs tl)
/-- the same for all elements -/
inductive NoReturnsAll : List Xml → Prop
  | nil : NoReturnsAll []
  | cons {x : Xml} {xs : List Xml} : NoReturns x → NoReturnsAll xs → NoReturnsAll (x :: xs)
end

/-- a text as it has to be written in a template: `&`, `<` and `>` by their names -/
def xmlEscape (s : Str) : Str := s.flatMap (fun c => if c = '&' then c!"&amp;" else if c = '<' then c!"&lt;" else if c = '>' then c!"&gt;" else [c])

end Spec
