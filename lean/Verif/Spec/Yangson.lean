import Verif.Model.Yangson
import Verif.Spec.Tree
/-!
# Specification: validation with YANG modules
-/

namespace Spec
open Py TTP TTP.Yang

/-- What comes of an instance: it cannot be read, it does not validate, it cannot be converted (with the traceback), or it is good, with its XML if
that is asked for. -/
inductive Judgement (dm : DataModel) (s : Scope) (c : Content) (xml : Bool) (v : Val) : Except Str Str → Prop
  | raw {t : Str} : dm.raw v = some t → Judgement dm s c xml v (.error t)
  | bad {t : Str} : dm.raw v = none → dm.check s c v = some t → Judgement dm s c xml v (.error t)
  | noXml {t : Str} : dm.raw v = none → dm.check s c v = none → xml = true → dm.xml v = .error t → Judgement dm s c xml v (.error t)
  | good : dm.raw v = none → dm.check s c v = none → xml = false → Judgement dm s c xml v (.ok [])
  | goodXml {x : Str} : dm.raw v = none → dm.check s c v = none → xml = true → dm.xml v = .ok x → Judgement dm s c xml v (.ok x)

/-- `True` or `False` for each number, counted from `i` -/
def flagsFrom : Nat → List (Except Str Str) → Dict Key Val
  | _, [] => []
  | i, .ok _ :: rs => (.i i, .bool true) :: flagsFrom (i + 1) rs
  | i, .error _ :: rs => (.i i, .bool false) :: flagsFrom (i + 1) rs

/-- the tracebacks by number -/
def tracesFrom : Nat → List (Except Str Str) → Dict Key Val
  | _, [] => []
  | i, .ok _ :: rs => tracesFrom (i + 1) rs
  | i, .error t :: rs => (.i i, .str t) :: tracesFrom (i + 1) rs

/-- the XML of the good ones -/
def goodXmls : List (Except Str Str) → List Val
  | [] => []
  | .ok x :: rs => .str x :: goodXmls rs
  | .error _ :: rs => goodXmls rs

/-- the report of a validation -/
def yangReport (result exception valid : Val) : Val :=
  .dict [(.s c!"result", result), (.s c!"exception", exception), (.s c!"valid", valid), (.s c!"comment", .str [])]

/-- arguments of the statements with a keyword -/
def argsOf (kw : Str) (ss : List Stmt) : List Str := (ss.filter (fun s => decide (s.keyword = kw))).map (·.arg)

/-- the revision: the first one that is not empty -/
def revisionOf (ss : List Stmt) : Str := ((argsOf c!"revision" ss).find? (fun a => decide (a ≠ []))).getD []

/-- submodules that are included, with the revision that is asked for -/
def includesOf (ss : List Stmt) : List (Str × Option Str) :=
  (ss.filter (fun s => decide (s.keyword = c!"include"))).map (fun s => (s.arg, s.revDate))

/-- keywords of statements that add nodes to the tree of the schema -/
def dataKeywords : List Str :=
  [c!"augment", c!"container", c!"leaf", c!"leaf-list", c!"list", c!"rpc", c!"notification", c!"identity"]

/-- does a file add nodes -/
def AddsNodes (y : YFile) : Prop := ∃ s ∈ y.subs, s.keyword ∈ dataKeywords

/-- The entry of a module in the library: name, revision, namespace, its features and those of its submodules if there are some, the submodules with their
revisions if there are some, `implement` if the module and all its submodules add nodes, otherwise `import`. -/
def LibEntry (ys : List YFile) (y : YFile) (v : Val) : Prop :=
  ∃ (ns : Str) (subs : List YFile) (fs : List Str) (ct : Str), (argsOf c!"namespace" y.subs).getLast? = some ns ∧
    All2 (fun (i : Str × Option Str) (s : YFile) => s ∈ ys ∧ s.keyword = c!"submodule" ∧ s.name = i.1 ∧ (i.2 = none ∨ i.2 = some (revisionOf s.subs)))
      (includesOf y.subs) subs ∧
    fs = argsOf c!"feature" y.subs ++ subs.flatMap (fun s => argsOf c!"feature" s.subs) ∧
    ((AddsNodes y ∧ (∀ s ∈ subs, AddsNodes s)) ∧ ct = c!"implement" ∨ ¬ (AddsNodes y ∧ (∀ s ∈ subs, AddsNodes s)) ∧ ct = c!"import") ∧
    v = .dict ([(.s c!"name", .str y.name), (.s c!"revision", .str (revisionOf y.subs)), (.s c!"namespace", .str ns)] ++
      (if fs = [] then [] else [(.s c!"feature", .list (fs.map .str))]) ++
      (if subs = [] then [] else [(.s c!"submodule", .list (subs.map (fun s => .dict [(.s c!"name", .str s.name), (.s c!"revision", .str (revisionOf s.subs))])))]) ++
      [(.s c!"conformance-type", .str ct)])

/-- files that are modules of YANG -/
def yangFiles (files : List (Str × Str)) : List (Str × Str) := files.filter (fun f => decide (c!".yang" <:+ f.1))

/-- the modules, without submodules -/
def mainOf (ys : List YFile) : List YFile := ys.filter (fun y => decide (y.keyword ≠ c!"submodule"))
/-- the submodules -/
def partsOf (ys : List YFile) : List YFile := ys.filter (fun y => decide (y.keyword = c!"submodule"))

/-- No module is there twice with the same revision, no submodule twice. -/
def OnceEach (ys : List YFile) : Prop :=
  ((mainOf ys).map (fun y => (y.name, revisionOf y.subs))).Nodup ∧ ((partsOf ys).map (·.name)).Nodup

/-- The library that the validation uses: the text of the output tag, the file that is named, or what is made of the directory. -/
def Chosen (W : YWorld) (m : Maps) (tag : Str) (libFile : Option (Except Str Str)) (files : Option (List (Str × Str))) (lib : Sum Str (List Val)) : Prop :=
  (tag ≠ [] ∧ lib = .inl tag) ∨ (∃ t, tag = [] ∧ libFile = some (.ok t) ∧ lib = .inl t) ∨
  (∃ ms, tag = [] ∧ libFile = none ∧ (makeLibrary W.parse m files).2 = .lib ms ∧ lib = .inr ms)

end Spec
