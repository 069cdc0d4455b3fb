import Verif.Spec.Urls
import Verif.Spec.Outputs
/-!
# Specification: tags of inputs with functions, tags of lookup tables
-/

namespace Spec
open Py TTP

/-! ## Lookup tables -/

/-- What a lookup tag holds: nothing if it has no text and no `include`, else what the loader makes of its text. -/
inductive HoldsTable (C : TplCtx) (x : Xml) : Val → Prop
  | nothing : x.text.getD [] = [] → Dict.get? x.attrib c!"include" = none → HoldsTable C x .none
  | loaded {f : Str → Dict Str Val → PyM Val} {v : Val} : ¬ (x.text.getD [] = [] ∧ Dict.get? x.attrib c!"include" = none) → LoaderOf C x f →
      f (x.text.getD []) (x.attrib.map (fun kv => (kv.1, .str kv.2))) = .ok v → HoldsTable C x v

/-! ## Inputs -/

/-- the attributes of an input tag; the groups and the loader are at the end if the tag does not have them -/
def inTagAttrs (x : Xml) : Dict Str Val :=
  x.attrib.map (fun kv => (kv.1, .str kv.2)) ++
    ((if Dict.get? x.attrib c!"groups" = none then [(c!"groups", .list [.str c!"all"])] else []) ++
      (if Dict.get? x.attrib c!"load" = none then [(c!"load", .str c!"python")] else []))

/-- The dictionary in the text of an input tag: none if the text is data (`load="text"`) or there is no text and no `include`; else what
the loader makes of the text: a dictionary, or something empty. -/
inductive InText (C : TplCtx) (x : Xml) : Dict Key Val → Prop
  | text : strip ((Dict.get? x.attrib c!"load").getD c!"python") = c!"text" → InText C x []
  | nothing : strip ((Dict.get? x.attrib c!"load").getD c!"python") ≠ c!"text" → x.text.getD [] = [] → Dict.get? x.attrib c!"include" = none →
      InText C x []
  | loaded {f : Str → Dict Str Val → PyM Val} {d : Dict Key Val} : strip ((Dict.get? x.attrib c!"load").getD c!"python") ≠ c!"text" →
      ¬ (x.text.getD [] = [] ∧ Dict.get? x.attrib c!"include" = none) → LoaderOf C x f → f (x.text.getD []) (inTagAttrs x) = .ok (.dict d) → InText C x d
  | empty {f : Str → Dict Str Val → PyM Val} {v : Val} : strip ((Dict.get? x.attrib c!"load").getD c!"python") ≠ c!"text" →
      ¬ (x.text.getD [] = [] ∧ Dict.get? x.attrib c!"include" = none) → LoaderOf C x f → f (x.text.getD []) (inTagAttrs x) = .ok v →
      (∀ d, v ≠ .dict d) → v.truthy = false → InText C x []

/-- all attributes in the order in which they count: what is in the text comes after `load` -/
def InOrder (x : Xml) (d : Dict Key Val) (seq : List (Str × Val)) : Prop :=
  ∃ before after v, inTagAttrs x = before ++ (c!"load", v) :: after ∧ seq = before ++ (c!"load", v) :: (d.filterMap strEntry ++ after)

/-- Attributes of a name (in whatever case) can all be read, and the last one counts; `d` if there is none. -/
def LastIs {α : Type} (seq : List (Str × Val)) (key : Str) (R : Val → α → Prop) (d r : α) : Prop :=
  (∀ kv ∈ seq, lower kv.1 = key → ∃ a, R kv.2 a) ∧
    match (seq.filter (fun kv => decide (lower kv.1 = key))).getLast? with
    | none => r = d
    | some kv => R kv.2 r

/-- a text without white space at its ends -/
def Stripped (v : Val) (r : Str) : Prop := ∃ s, v = .str s ∧ r = strip s

/-- names of groups: a text with commas, or the texts of a list -/
inductive NamesOf : Val → List Str → Prop
  | text (s : Str) : NamesOf (.str s) ((splitC ',' s).map strip)
  | list (xs : List Val) : NamesOf (.list xs) (xs.filterMap (fun v => match v with
      | .str s => some s
      | _ => none))

/-- the numbers of the groups of an input, in ascending order -/
def GroupsOf (gs : List TopGroup) (n : Str) (names : List Str) (l : List Nat) : Prop := l.Pairwise (· < ·) ∧ ∀ i, i ∈ l ↔ Routed gs n names i

/-- the last `groups` counts, for the name that the input has where it is read -/
def GroupsIs (gs : List TopGroup) (seq : List (Str × Val)) (name0 : Str) (l : List Nat) : Prop :=
  (∀ kv ∈ seq, lower kv.1 = c!"groups" → ∃ a, NamesOf kv.2 a) ∧
    ∃ before kv after names n, seq = before ++ kv :: after ∧ lower kv.1 = c!"groups" ∧ (∀ q ∈ after, lower q.1 ≠ c!"groups") ∧ NamesOf kv.2 names ∧
      LastIs before c!"name" Stripped name0 n ∧ GroupsOf gs n names l

/-- names that are options of an input, not functions -/
def inOptions : List Str := [c!"name", c!"load", c!"groups", c!"extensions", c!"filters", c!"url"]

/-- the input functions an attribute stands for: those of the pipe of `functions` that exist, the commands (a text with commas) to
extract, or the function of the name of the attribute -/
inductive InCalls (C : TplCtx) : Str × Val → List FnCall → Prop
  | pipe {n s : Str} {fs : List FnCall} : lower n = c!"functions" → getAttributes C.load s = .ok fs → (∀ f ∈ fs, f.name ≠ c!"functions") →
      InCalls C (n, .str s) (fs.filter (fun f => decide (f.name = c!"extract_commands") || C.isInFn f.name))
  | commands {n s : Str} : lower n = c!"extract_commands" →
      InCalls C (n, .str s) [⟨c!"extract_commands", (((splitC ',' s).map strip).filter (fun i => decide (i ≠ []))).map .str, []⟩]
  | noText {n : Str} {v : Val} : lower n = c!"extract_commands" → (∀ s, v ≠ .str s) → InCalls C (n, v) []
  | own {n : Str} {v : Val} {f : FnCall} {fs : List FnCall} : lower n ∉ inOptions → lower n ∉ [c!"functions", c!"extract_commands"] →
      C.isInFn n = true → getAttributes C.load (n ++ c!"(" ++ pyStr v ++ c!")") = .ok (f :: fs) → InCalls C (n, v) [f]
  | option {n : Str} {v : Val} : lower n ∈ inOptions → InCalls C (n, v) []
  | other {n : Str} {v : Val} : lower n ∉ inOptions → lower n ∉ [c!"functions", c!"extract_commands"] → C.isInFn n = false → InCalls C (n, v) []

/-- What the attributes say of an input: loader, urls, extensions, filters, name, groups, functions. -/
structure InputOf (C : TplCtx) (gs : List TopGroup) (seq : List (Str × Val)) (name0 : Str) (load : Str) (urls exts filters : List Str) (name : Str)
    (groups : List Nat) (fs : List FnCall) : Prop where
  load : LastIs seq c!"load" Stripped c!"python" load
  urls : LastIs seq c!"url" TextsOf [] urls
  exts : LastIs seq c!"extensions" TextsOf [] exts
  filters : LastIs seq c!"filters" TextsOf [] filters
  name : LastIs seq c!"name" Stripped name0 name
  groups : GroupsIs gs seq name0 groups
  functions : ∃ fss, All2 (InCalls C) seq fss ∧ fs = fss.flatten

/-- what an input tag says: name, loader, urls, extensions, filters, data, groups, functions, parameters -/
structure InRec where
  name : Str
  load : Str
  urls : List Str
  exts : List Str
  filters : List Str
  data : List Datum
  groups : List Nat
  functions : List FnCall
  params : Dict Key Val

/-- the data of all urls, each with the base path before it -/
def ReadUrls (C : TplCtx) (base : Str) (r : InRec) (ds : List Datum) : Prop :=
  ∃ dss, All2 (fun u ds => UrlData C r.exts r.filters (base ++ u) ds) r.urls dss ∧ ds = dss.flatten

/-- The input tag: its attributes and the dictionary in its text, and its data: the text itself with `load="text"`, else what is at the
urls. -/
def InputTag (C : TplCtx) (gs : List TopGroup) (base : Str) (x : Xml) (r : InRec) : Prop :=
  (∃ seq, InText C x r.params ∧ InOrder x r.params seq ∧
    InputOf C gs seq (strip ((Dict.get? x.attrib c!"name").getD c!"Default_Input")) r.load r.urls r.exts r.filters r.name r.groups r.functions) ∧
  ((r.load = c!"text" ∧ ∃ s, x.text = some s ∧ s ≠ [] ∧ r.data = [⟨.text, .str s⟩]) ∨
    (¬ (r.load = c!"text" ∧ x.text.getD [] ≠ []) ∧ ReadUrls C base r r.data))

/-- Data of the tags of one name after the first: those that are not there yet are added; for a tag without data the data `again` (of the
urls of the first tag) are added. -/
def addedData (again : List Datum) : List Datum → List (List Datum) → List Datum
  | acc, [] => acc
  | acc, d :: ds => addedData again (if d = [] then acc ++ again else d.foldl (fun acc q => if q ∈ acc then acc else acc ++ [q]) acc) ds

/-- attributes named `load` (in whatever case) are written in lower case and not in the text -/
structure LoadPlain (C : TplCtx) (x : Xml) : Prop where
  once : Dict.WF x.attrib
  attrs : ∀ k ∈ Dict.keys x.attrib, lower k = c!"load" → k = c!"load"
  text : ∀ d, InText C x d → ∀ k v, (Key.s k, v) ∈ d → lower k ≠ c!"load"

end Spec
