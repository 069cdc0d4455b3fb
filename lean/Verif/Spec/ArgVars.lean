import Verif.Model.Parser
/-!
# Specification: arguments that name template variables
-/

namespace Spec
open Py TTP

/-- the argument that a function gets: a text that is the name of a template variable stands for its value -/
def argTaken (vars : Dict Str Val) : Val → Val
  | .str s => match Dict.get? vars s with
    | some v => v
    | none => .str s
  | a => a

/-- a list or a dictionary -/
def IsStructure (a : Val) : Prop := (∃ xs, a = .list xs) ∨ ∃ kvs, a = .dict kvs

end Spec
