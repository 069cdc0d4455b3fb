import Verif.Model.Outputs
/-!
# The formatter `n2g`

Model of ttp/formatters/n2g_formatter.py. The library N2G is a parameter: a type of diagrams, how to make one, its methods, its layout and its text.
-/

namespace TTP
namespace N2g
open Py

/-- the two kinds of diagrams, ttp/formatters/n2g_formatter.py 17-20 -/
inductive Drawing where
  | yed
  | drawio
  deriving DecidableEq, Repr

/-- The library: is it there; a new diagram (with what to do with double nodes and links); the methods by name; the layout; the text of a diagram.
Simplification: diagrams are values and the methods return the changed one. -/
structure Lib (D : Type) where
  installed : Drawing → Bool
  create : Drawing → Val → Val → PyM D
  method : Str → Option (D → Val → Dict Str Val → PyM D)
  layout : D → Val → PyM D
  dump : D → PyM Val

/-- the module by name, ttp/formatters/n2g_formatter.py 17-28 -/
def drawing (m : Str) : Option Drawing :=
  if lower m = c!"yed" then some .yed
  else if lower m = c!"drawio" then some .drawio
  else none

/-- `kwargs.get(name, default)`, ttp/formatters/n2g_formatter.py 8-14 -/
def opt (attrs : Dict Str Val) (name : Str) (dflt : Val) : Val := (Dict.get? attrs name).getD dflt

/-- the text of an option; simplification: a module that is no text raises `AttributeError` (`.lower()`), ttp/formatters/n2g_formatter.py 17 -/
def moduleName : Val → PyM Str
  | .str s => pure s
  | _ => throw .attributeError

/-- keyword arguments: names must be texts, ttp/formatters/n2g_formatter.py 37 -/
def kwNames : List (Key × Val) → PyM (List (Str × Val))
  | [] => pure []
  | (.s k, v) :: r => do
    let t ← kwNames r
    pure ((k, v) :: t)
  | (.i _, _) :: _ => throw .typeError

/-- `**method_kwargs`, ttp/formatters/n2g_formatter.py 37 -/
def kwargsOf : Val → PyM (Dict Str Val)
  | .dict d => kwNames d
  | _ => throw .typeError

/-- `getattr(diagram_obj, method)`, ttp/formatters/n2g_formatter.py 37 -/
def methodOf {D : Type} (L : Lib D) : Val → PyM (D → Val → Dict Str Val → PyM D)
  | .str s => match L.method s with
    | some f => pure f
    | none => throw .attributeError
  | _ => throw .typeError

/-- the results, ttp/formatters/n2g_formatter.py 32-35: a dictionary is one result; simplification: a text is not iterated but raises `TypeError` -/
def resultsOf : Val → PyM (List Val)
  | .dict d => pure [.dict d]
  | .list xs => pure xs
  | _ => throw .typeError

/-- one result, ttp/formatters/n2g_formatter.py 36-37 -/
def drawOne {D : Type} (L : Lib D) (attrs : Dict Str Val) (d : D) (result : Val) : PyM D := do
  let path ← OutFn.pathArg (opt attrs c!"path" (.list []))
  let item ← Format.traverse true path result
  let f ← methodOf L (opt attrs c!"method" (.str c!"from_list"))
  let kw ← kwargsOf (opt attrs c!"method_kwargs" (.dict []))
  f d item kw

/-- the loop over results, ttp/formatters/n2g_formatter.py 35-37 -/
def drawAll {D : Type} (L : Lib D) (attrs : Dict Str Val) : D → List Val → PyM D
  | d, [] => pure d
  | d, r :: rs => do
    let d' ← drawOne L attrs d r
    drawAll L attrs d' rs

/-- the layout, ttp/formatters/n2g_formatter.py 39-40 -/
def layOut {D : Type} (L : Lib D) (algo : Val) (d : D) : PyM D :=
  if algo.truthy then L.layout d algo else pure d

/-- a diagram of the data, ttp/formatters/n2g_formatter.py 31-43 -/
def diagram {D : Type} (L : Lib D) (k : Drawing) (attrs : Dict Str Val) (data : Val) : PyM Val := do
  let d0 ← L.create k (opt attrs c!"node_duplicates" (.str c!"skip")) (opt attrs c!"link_duplicates" (.str c!"skip"))
  let rs ← resultsOf data
  let d1 ← drawAll L attrs d0 rs
  let d2 ← layOut L (opt attrs c!"algo" .none) d1
  L.dump d2

/-- `n2g(data, **kwargs)`, ttp/formatters/n2g_formatter.py 6-44 -/
def n2g {D : Type} (L : Lib D) (attrs : Dict Str Val) (data : Val) : PyM Val := do
  let m ← moduleName (opt attrs c!"module" (.str c!"yed"))
  match drawing m with
  | none => pure data
  | some k => if L.installed k then diagram L k attrs data else pure data

end N2g
end TTP
