import Verif.Py.Str
/-!
# Validation of results with YANG modules

Model of ttp/output/validate_yangson.py. The library yangson is a parameter: parsing the text of a module, making a data model of a library
and a directory, and checking an instance with it, or raising. Files of a directory come as pairs of name and text, in the order of
`os.listdir`. `json.dumps` of the library is left out: the data model is made of the library itself. Converting to XML needs
`xml.etree.cElementTree`, that is a Python before 3.9.
-/

namespace TTP
open Py

namespace Yang

/-- a statement inside of a module: keyword, argument, and the argument of its `revision-date`, ttp/output/validate_yangson.py 72-86 -/
structure Stmt where
  keyword : Str
  arg : Str
  revDate : Option Str
deriving DecidableEq

/-- a parsed file: keyword (`module` or `submodule`), name, statements, ttp/output/validate_yangson.py 64-67 -/
structure YFile where
  keyword : Str
  name : Str
  subs : List Stmt
deriving DecidableEq

/-- what is kept of a file, ttp/output/validate_yangson.py 87-94; the local variables of the loop -/
structure Rec where
  «namespace» : Option Str := none
  importOnly : Bool := true
  features : List Str := []
  revision : Str := []
  includes : List (Str × Option Str) := []
deriving DecidableEq

/-- keywords of data, ttp/output/validate_yangson.py 38-47 -/
def dataKws : List Str :=
  [c!"augment", c!"container", c!"leaf", c!"leaf-list", c!"list", c!"rpc", c!"notification", c!"identity"]

/-- one statement, ttp/output/validate_yangson.py 73-86 -/
def stmt (submod : Bool) (r : Rec) (s : Stmt) : Rec :=
  if r.revision = [] && s.keyword = c!"revision" then { r with revision := s.arg }
  else if r.importOnly && decide (s.keyword ∈ dataKws) then { r with importOnly := false }
  else if s.keyword = c!"feature" then { r with features := r.features ++ [s.arg] }
  else if submod then r
  else if s.keyword = c!"namespace" then { r with «namespace» := some s.arg }
  else if s.keyword = c!"include" then { r with includes := r.includes ++ [(s.arg, s.revDate)] }
  else r

/-- the module level dictionaries, ttp/output/validate_yangson.py 50-54: they live as long as the process -/
structure Maps where
  mods : Dict (Str × Str) Rec
  subs : Dict Str Rec
deriving DecidableEq

/-- is it a submodule, ttp/output/validate_yangson.py 67 -/
def isSub (y : YFile) : Bool := decide (y.keyword = c!"submodule")

/-- the record of a file, ttp/output/validate_yangson.py 68-86 -/
def recOf (y : YFile) : Rec := y.subs.foldl (stmt (isSub y)) {}

/-- `_module_entry`, ttp/output/validate_yangson.py 57-94 -/
def entry (m : Maps) (y : YFile) : Maps :=
  if isSub y then { m with subs := Dict.set m.subs y.name (recOf y) }
  else { m with mods := Dict.set m.mods (y.name, (recOf y).revision) (recOf y) }

/-- the files of a directory, ttp/output/validate_yangson.py 103-109: the dictionaries afterwards, and the error if a text cannot be parsed -/
def readFiles (parse : Str → Except Err YFile) (m : Maps) : List (Str × Str) → Maps × Option Err
  | [] => (m, none)
  | (name, text) :: fs =>
    if endsWith name c!".yang" then
      match parse text with
      | .ok y => readFiles parse (entry m y) fs
      | .error e => (m, some e)
    else readFiles parse m fs

/-- how the submodules of a module come out: one is not available or of another revision (`return 1`), with the features up to it, or the entries, the flag and the features -/
inductive Subs where
  | stop (features : List Str)
  | go (entries : List Val) (importOnly : Bool) (features : List Str)

/-- the revision of a submodule fits, ttp/output/validate_yangson.py 124 -/
def revFits (asked : Option Str) (r : Str) : Bool := asked.isNone || decide (asked = some r)

/-- the loop over the submodules, ttp/output/validate_yangson.py 117-131 -/
def subLoop (subs : Dict Str Rec) : List (Str × Option Str) → List Val → Bool → List Str → Subs
  | [], es, io, fs => .go es io fs
  | (n, rev) :: rest, es, io, fs =>
    match Dict.get? subs n with
    | none => .stop fs
    | some r =>
      if revFits rev r.revision then
        subLoop subs rest (es ++ [.dict [(.s c!"name", .str n), (.s c!"revision", .str r.revision)]]) (io || r.importOnly) (fs ++ r.features)
      else .stop fs

/-- the entry of a module, ttp/output/validate_yangson.py 112-137 -/
def modEntry (k : Str × Str) (ns : Str) (es : List Val) (io : Bool) (fs : List Str) : Val :=
  .dict ([(.s c!"name", .str k.1), (.s c!"revision", .str k.2), (.s c!"namespace", .str ns)] ++
    (if fs = [] then [] else [(.s c!"feature", .list (fs.map .str))]) ++
    (if es = [] then [] else [(.s c!"submodule", .list es)]) ++
    [(.s c!"conformance-type", .str (if io then c!"import" else c!"implement"))])

/-- what `_make_library` gives: a library, 1, or an error -/
inductive Lib where
  | lib (modules : List Val)
  | one
  | err (e : Err)

/-- The loop over the modules, ttp/output/validate_yangson.py 110-139. The features of submodules are added to the list of the module in the
dictionary itself (`fts +=`), so the dictionary comes back changed. -/
def modLoop (subs : Dict Str Rec) : List ((Str × Str) × Rec) → List Val → List ((Str × Str) × Rec) × Lib
  | [], out => ([], .lib out)
  | (k, r) :: ms, out =>
    match r.namespace with
    | none => ((k, r) :: ms, .err .keyError)
    | some ns =>
      match subLoop subs r.includes [] r.importOnly r.features with
      | .stop fs => ((k, { r with features := fs }) :: ms, .one)
      | .go es io fs =>
        let rest := modLoop subs ms (out ++ [modEntry k ns es io fs])
        ((k, { r with features := fs }) :: rest.1, rest.2)

/-- `_make_library`, ttp/output/validate_yangson.py 97-141; `files` is what is in the directory, `none` if `os.listdir` fails -/
def makeLibrary (parse : Str → Except Err YFile) (m : Maps) (files : Option (List (Str × Str))) : Maps × Lib :=
  match files with
  | none => (m, .err .fileNotFound)
  | some fs =>
    match readFiles parse m fs with
    | (m', some e) => (m', .err e)
    | (m', none) =>
      let r := modLoop m'.subs m'.mods []
      ({ m' with mods := r.1 }, r.2)

/-- scopes of the validation, ttp/output/validate_yangson.py 215-226 -/
inductive Scope where
  | all | semantics | syn
deriving DecidableEq
/-- kinds of content -/
inductive Content where
  | all | config | nonconfig
deriving DecidableEq

/-- the scope of a name, ttp/output/validate_yangson.py 215-220; other names leave the variable unbound -/
def scopeOf (s : Str) : Option Scope :=
  if s = c!"all" then some .all else if s = c!"semantics" then some .semantics else if s = c!"syntax" then some .syn else none

/-- the content of a name, ttp/output/validate_yangson.py 221-226 -/
def contentOf (s : Str) : Option Content :=
  if s = c!"all" then some .all else if s = c!"config" then some .config else if s = c!"nonconfig" then some .nonconfig else none

/-- A data model: an instance is checked, with the text of the traceback if it does not validate, and its XML. `raw` is the error of
`from_raw`, before anything else. -/
structure DataModel where
  raw : Val → Option Str
  check : Scope → Content → Val → Option Str
  xml : Val → Except Str Str

/-- The world: is the library installed, what it makes of the text of a file, the data model of a library (a text, or the modules that
`_make_library` found) or the text of a traceback, and the texts of other tracebacks. -/
structure YWorld where
  hasLibs : Bool
  parse : Str → Except Err YFile
  make : Sum Str (List Val) → Except Str DataModel
  trace : Err → Str
  noLibs : Str

/-- the options of a call -/
structure Opts where
  scope : Str
  content : Str
  toXml : Bool
  metadata : Bool

/-- checking one instance, ttp/output/validate_yangson.py 231-236, 243-247: the XML (empty without `to_xml`) or the traceback -/
def check (W : YWorld) (dm : DataModel) (o : Opts) (v : Val) : Except Str Str :=
  match dm.raw v with
  | some t => .error t
  | none =>
    match scopeOf o.scope, contentOf o.content with
    | some s, some c =>
      match dm.check s c v with
      | some t => .error t
      | none => if o.toXml then dm.xml v else .ok []
    | _, _ => .error (W.trace .unboundLocal)

/-- the report while it grows: `result` as list, `exception`, `valid` -/
structure Rep where
  xmls : List Val
  exc : Dict Key Val
  valid : Dict Key Val

/-- the loop over a list, ttp/output/validate_yangson.py 229-241; `none` is `return False` -/
def checkList (W : YWorld) (dm : DataModel) (o : Opts) : Nat → List Val → Rep → Option Rep
  | _, [], r => some r
  | i, v :: vs, r =>
    match check W dm o v with
    | .ok x => checkList W dm o (i + 1) vs
        ⟨if o.toXml then r.xmls ++ [.str x] else r.xmls, r.exc, Dict.set r.valid (.i i) (.bool true)⟩
    | .error t =>
      if o.metadata then checkList W dm o (i + 1) vs ⟨r.xmls, Dict.set r.exc (.i i) (.str t), Dict.set r.valid (.i i) (.bool false)⟩
      else none

/-- the report, ttp/output/validate_yangson.py 179-184 -/
def report (result exc valid comment : Val) : Val :=
  .dict [(.s c!"result", result), (.s c!"exception", exc), (.s c!"valid", valid), (.s c!"comment", comment)]

/-- the flags before the data model is made, ttp/output/validate_yangson.py 186-189 -/
def firstValid (W : YWorld) : Val := if W.hasLibs then .dict [] else .dict [(.i 0, .bool false)]

/-- the report when there is no data model, ttp/output/validate_yangson.py 202-212 -/
def failed (W : YWorld) (o : Opts) (data : Val) (t : Str) : Val :=
  if o.metadata then
    .dict [(.s c!"result", if o.toXml then .list [] else data), (.s c!"exception", .str t), (.s c!"valid", firstValid W),
      (.s c!"comment", .str c!"Failed to instantiate DataModel, check YANG library and path to YANG modules."), (.s c!"success", .bool false)]
  else .bool false

/-- what is returned at the end, ttp/output/validate_yangson.py 258-262 -/
def final (o : Opts) (result exc valid : Val) : Val :=
  if o.metadata then report result exc valid (.str []) else result

/-- the validation with a data model, ttp/output/validate_yangson.py 228-262 -/
def run (W : YWorld) (dm : DataModel) (o : Opts) (data : Val) : Val :=
  match data with
  | .list vs =>
    match checkList W dm o 0 vs ⟨[], [], []⟩ with
    | some r => final o (if o.toXml then .list r.xmls else data) (.dict r.exc) (.dict r.valid)
    | none => .bool false
  | .dict _ =>
    match check W dm o data with
    | .ok x => final o (if o.toXml then .str x else data) (.dict []) (.bool true)
    | .error t =>
      if o.metadata then final o (if o.toXml then .list [] else data) (.str t) (.bool false)
      else .bool false
  | _ => final o (if o.toXml then .list [] else data) (.dict []) (.dict [])

/-- the validation with a library, ttp/output/validate_yangson.py 206-262 -/
def withLib (W : YWorld) (o : Opts) (data : Val) (lib : Sum Str (List Val)) : Val :=
  match W.make lib with
  | .ok dm => run W dm o data
  | .error t => failed W o data t

/-- what is made of the result of `_make_library`: 1 is no text for a data model and raises `TypeError`, ttp/output/validate_yangson.py 205-214 -/
def withMade (W : YWorld) (o : Opts) (data : Val) : Lib → Val
  | .lib ms => withLib W o data (.inr ms)
  | .one => failed W o data (W.trace .typeError)
  | .err e => failed W o data (W.trace e)

/-- `validate_yangson`, ttp/output/validate_yangson.py 144-262. `tag` is the text of the output tag (empty if there is none), `libFile` the text of
the file `yang_mod_lib` or the traceback of opening it, `files` what is in the directory of modules. -/
def validate (W : YWorld) (m : Maps) (tag : Str) (libFile : Option (Except Str Str)) (files : Option (List (Str × Str))) (o : Opts) (data : Val) :
    Maps × Val :=
  if W.hasLibs = false then (m, failed W o data W.noLibs)
  else if tag ≠ [] then (m, withLib W o data (.inl tag))
  else
    match libFile with
    | some (.ok t) => (m, withLib W o data (.inl t))
    | some (.error t) => (m, failed W o data t)
    | none => ((makeLibrary W.parse m files).1, withMade W o data (makeLibrary W.parse m files).2)

end Yang
end TTP
