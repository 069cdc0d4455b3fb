import Verif.Spec.Object
import Verif.Spec.Tree
import Verif.Model.Tags
/-!
# Specification vocabulary for the tags of a template
-/

namespace Spec
open Py TTP

/-- the names a tag of each kind can be written with: variables, groups, outputs, inputs, lookups, templates -/
def tagNames : List (List Str) :=
  [[c!"v", c!"vars", c!"variables"], [c!"g", c!"grp", c!"group"], [c!"o", c!"out", c!"output"], [c!"i", c!"in", c!"input"],
   [c!"lookup"], [c!"template"]]

/-- the elements with one of the names, in any case -/
def tagged (names : List Str) (cs : List Xml) : List Xml := cs.filter (fun x => decide (lower x.tag ∈ names))

/-- every `doc` tag has a text -/
def DocsOk (cs : List Xml) : Prop := ∀ x ∈ cs, lower x.tag = c!"doc" → x.text ≠ none

/-- dictionary of a variables tag as a value -/
def asVal (d : Dict Str Val) : Val := .dict (d.map (fun kv => (.s kv.1, kv.2)))

/-- the loader the tag asks for (Python without `load` attribute) -/
def LoaderOf (C : TplCtx) (x : Xml) (f : Str → Dict Str Val → PyM Val) : Prop :=
  C.loader (lower ((Dict.get? x.attrib c!"load").getD c!"python")) = some f

/-- The variables tag gives the variables `d`: its loader makes them of its text, or it has no text and no `name` and gives none. -/
def GivesVars (C : TplCtx) (x : Xml) (d : Dict Str Val) : Prop :=
  (x.text.getD [] = [] ∧ Dict.get? x.attrib c!"include" = none ∧ Dict.get? x.attrib c!"name" = none ∧ d = []) ∨
  ((x.text.getD [] ≠ [] ∨ Dict.get? x.attrib c!"include" ≠ none) ∧ Dict.WF d ∧
    ∃ f, LoaderOf C x f ∧ f (x.text.getD []) (x.attrib.map (fun kv => (kv.1, .str kv.2))) = .ok (asVal d))

/-- the value is the name of a variable function -/
def Getter (C : TplCtx) (v : Val) : Prop := ∃ f, v = .str f ∧ C.isVarFn f = true

/-- the templates one after the other, each named by its number (from `n`) unless it has a name -/
def addEach (C : TplCtx) (base : Str) (n : Nat) (o : TTPObj) : List Xml → PyM TTPObj
  | [] => pure o
  | x :: xs => do addEach C base (n + 1) (← addTemplateXml C o base (natStr n) [] x) xs

/-- `x` is an input tag with the text itself: its name, the groups it names, the text -/
structure TextInput (x : Xml) (n : Str) (names : List Str) (s : Str) : Prop where
  attrs : ∀ k ∈ Dict.keys x.attrib, k ∈ [c!"name", c!"load", c!"groups"]
  once : Dict.WF x.attrib
  name : n = strip ((Dict.get? x.attrib c!"name").getD c!"Default_Input")
  load : ∃ l, Dict.get? x.attrib c!"load" = some l ∧ strip l = c!"text"
  groups : names = match Dict.get? x.attrib c!"groups" with
    | some g => (splitC ',' g).map strip
    | none => [c!"all"]
  text : x.text = some s
  some : s ≠ []

/-- Which groups an input of this name that names these groups is for: the groups that name it if there are any, else those
without input attribute that it names (all of them with `all`). -/
def Routed (gs : List TopGroup) (n : Str) (names : List Str) (i : Nat) : Prop :=
  (∃ g ∈ gs, g.index = i ∧ n ∈ g.inputs) ∨
    ((∀ g ∈ gs, n ∉ g.inputs) ∧ ∃ g ∈ gs, g.index = i ∧ g.inputs = [] ∧ (c!"all" ∈ names ∨ g.name ∈ names))

/-- the text is data itself: no path of a file or directory (also in the directory of templates), no `ttp://` path -/
structure NotAPath (w : World) (s : Str) : Prop where
  scheme : ¬ c!"ttp://" <+: s
  file : w.isFile (s.take 5000) = false
  dir : w.isDir (s.take 5000) = false
  inTemplates : ∀ d, w.templatesDir = some d → d = [] ∨ w.isFile (d ++ '/' :: s.take 5000) = false

/-- texts given for inputs (name, text): the inputs in the order in which they are first named, the distinct texts of each in order -/
def gathered (l : List (Str × Str)) : List Str :=
  (l.map (·.1)).eraseDups.flatMap (fun n => ((l.filter (fun q => decide (q.1 = n))).map (·.2)).eraseDups)

end Spec
