import Verif.Spec.Fmt
import Verif.Spec.Group
import Verif.Spec.Object
/-!
# Specification: reports of validation, results of inputs
-/

namespace Spec
open Py TTP

/-- the text of `info`: with the values of the names filled in, or as it is written if one of them is not known -/
inductive InfoText (val : Str → Option Val) : List FPart → Str → Prop
  | filled {ps t} : FilledIn val ps t → InfoText val ps t
  | unknown {ps n} : FPart.value n ∈ ps → val n = none → InfoText val ps (fmtSource ps)

/-- the report of the validation of an item: the verdict, the information and the errors, if they are asked for -/
def verdictReport (result : Str) (verdict : Bool) (info : Option Str) (errors : Option (Str × Val)) : Dict Key Val :=
  let r1 : Dict Key Val := [(.s result, .bool verdict)]
  let r2 := match info with
    | some t => Dict.set r1 (.s c!"info") (.str t)
    | none => r1
  match errors with
  | some (f, e) => Dict.set r2 (.s f) e
  | none => r2

/-- the dictionaries among the items -/
def dictsOf : List Val → List (Dict Key Val)
  | [] => []
  | .dict d :: vs => d :: dictsOf vs
  | _ :: vs => dictsOf vs

end Spec
