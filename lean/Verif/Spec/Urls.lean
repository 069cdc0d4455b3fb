import Verif.Spec.Files
import Verif.Model.Tags
/-!
# Specification: input tags with urls
-/

namespace Spec
open Py TTP

/-- a text, or a list of texts -/
inductive TextsOf : Val → List Str → Prop
  | one (s : Str) : TextsOf (.str s) [s]
  | many (ss : List Str) : TextsOf (.list (ss.map .str)) ss

/-- the value under the key is a text or a list of texts; nothing under the key counts as no texts -/
def TextsAt (d : Dict Str Val) (k : Str) (ss : List Str) : Prop :=
  match Dict.get? d k with
  | some v => TextsOf v ss
  | none => ss = []

/-- the names of groups of an input tag -/
def groupsNamed (a : Dict Str Str) : List Str :=
  match Dict.get? a c!"groups" with
  | some g => (splitC ',' g).map strip
  | none => [c!"all"]

/-- an input tag with urls: its name, the groups it names, urls, extensions and filters -/
structure UrlTag where
  name : Str
  groups : List Str
  urls : List Str
  exts : List Str
  filters : List Str

/-- `x` is such an input tag. Urls, extensions and filters are attributes of a tag without text, or are loaded from the text of the tag. -/
inductive UrlInput (C : TplCtx) (x : Xml) (q : UrlTag) : Prop
  | tag : (∀ k ∈ Dict.keys x.attrib, k ∈ [c!"name", c!"groups", c!"url", c!"extensions", c!"filters"]) → Dict.WF x.attrib →
      q.name = strip ((Dict.get? x.attrib c!"name").getD c!"Default_Input") → q.groups = groupsNamed x.attrib → (x.text = none ∨ x.text = some []) →
      q.urls = (Dict.get? x.attrib c!"url").toList → q.exts = (Dict.get? x.attrib c!"extensions").toList →
      q.filters = (Dict.get? x.attrib c!"filters").toList → UrlInput C x q
  | loaded (l s : Str) (f : Str → Dict Str Val → PyM Val) (d : Dict Str Val) :
      (∀ k ∈ Dict.keys x.attrib, k ∈ [c!"name", c!"load", c!"groups"]) → Dict.WF x.attrib →
      q.name = strip ((Dict.get? x.attrib c!"name").getD c!"Default_Input") → q.groups = groupsNamed x.attrib → x.text = some s → s ≠ [] →
      Dict.get? x.attrib c!"load" = some l → strip l ≠ c!"text" → C.loader (lower l) = some f →
      (∀ a : Dict Str Val, f s a = .ok (.dict (d.map (fun kv => (.s kv.1, kv.2))))) → Dict.WF d →
      (∀ k ∈ Dict.keys d, k ∈ [c!"url", c!"extensions", c!"filters"]) →
      TextsAt d c!"url" q.urls → TextsAt d c!"extensions" q.exts → TextsAt d c!"filters" q.filters → UrlInput C x q

/-- what follows the last dot of a file name (the whole name if there is no dot) -/
def Extension (f e : Str) : Prop := '.' ∉ e ∧ (f = e ∨ ∃ b, f = b ++ '.' :: e)

/-- the file name passes: it has one of the extensions, if there are any, and every filter has a match somewhere in it -/
def Passes (re : Str → Option Re) (exts filters : List Str) (f : Str) : Prop :=
  (exts = [] ∨ ∃ e ∈ exts, Extension f e) ∧ ∀ p ∈ filters, ∃ r, re p = some r ∧ ∃ k, k ≤ f.length ∧ Re.run r (f.drop k) ≠ []

open Classical in
/-- The data a url stands for: the text of a template of the collection, one file, the files of a directory that pass, or the url
itself as text. -/
inductive UrlData (C : TplCtx) (exts filters : List Str) : Str → List Datum → Prop
  | file {p : Str} : ¬ c!"ttp://" <+: p → C.eng.world.isFile (p.take 5000) = true → UrlData C exts filters p [⟨.file, .str p⟩]
  | shared {p d : Str} : ¬ c!"ttp://" <+: p → C.eng.world.isFile (p.take 5000) = false → C.eng.world.templatesDir = some d → d ≠ [] →
      C.eng.world.isFile (d ++ '/' :: p.take 5000) = true → UrlData C exts filters p [⟨.file, .str (d ++ '/' :: p.take 5000)⟩]
  | dir {p : Str} : ¬ c!"ttp://" <+: p → C.eng.world.isFile (p.take 5000) = false →
      (∀ d, C.eng.world.templatesDir = some d → d = [] ∨ C.eng.world.isFile (d ++ '/' :: p.take 5000) = false) →
      C.eng.world.isDir (p.take 5000) = true →
      UrlData C exts filters p (((C.eng.world.listdir p).filter (fun f =>
        C.eng.world.isFile (p ++ '/' :: f) && decide (Passes C.load.re exts filters f))).map (fun f => ⟨.file, .str (p ++ '/' :: f)⟩))
  | text {s : Str} : NotAPath C.eng.world s → UrlData C exts filters s [⟨.text, .str s⟩]
  | collection {p : Str} : c!"ttp://" <+: p → UrlData C exts filters p [⟨.text, .str (C.eng.world.ttpTemplate (replace p c!"ttp://" []))⟩]

end Spec
