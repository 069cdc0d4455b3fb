import Verif.Spec.Outputs
import Verif.Model.N2g
/-!
# Specification: diagrams of results
-/

namespace Spec
open Py TTP

/-- an option of an output, or what stands for it if it is not given -/
def OptionIs (attrs : Dict Str Val) (name : Str) (dflt v : Val) : Prop :=
  Dict.get? attrs name = some v ∨ (Dict.get? attrs name = none ∧ v = dflt)

/-- the diagram `e` is the diagram `d` after the method was called with each item, in order -/
inductive Drawn {D : Type} (f : D → Val → Dict Str Val → PyM D) (kw : Dict Str Val) : D → List Val → D → Prop
  | nil {d : D} : Drawn f kw d [] d
  | cons {d e g : D} {v : Val} {vs : List Val} : f d v kw = .ok e → Drawn f kw e vs g → Drawn f kw d (v :: vs) g

/-- a path of an output: names, or a text of names with dots in between (and spaces around the names) -/
inductive PathIs : Val → List Str → Prop
  | names (ns : List Str) : PathIs (.list (ns.map .str)) ns
  | text (s : Str) : PathIs (.str s) ((splitC '.' s).map strip)

end Spec
