import Verif.Model.Object
import Verif.Model.Load
/-!
# Groups with their own outputs

Model of the part of `_parser_class.parse` for groups with an `output` attribute, ttp/ttp.py 2602-2658.
-/

namespace TTP
open Py

/-- `for output in grp_raw_result[1]: grp_result = output.run(data=grp_result)`, ttp/ttp.py 2648-2649: a name that was not replaced by an
output has no method `run`. Simplification: the flag `return_to_self` of an output is not kept; it is set by the same run that uses it. -/
def runSlots (E : Engine) (tvars : Dict Str Val) : List (Slot Outputter) → Val → PyM Val
  | [], v => pure v
  | .name _ :: _, _ => throw .attributeError
  | .obj o :: rest, v => do
    let r ← runOutput E tvars o v
    runSlots E tvars rest r.1

/-- a result is appended to the main results, which become a list first, ttp/ttp.py 2650-2658 -/
def appendResult (main r : Val) : PyM Val :=
  match main with
  | .dict [] => pure (.list [r])
  | .dict (kv :: d) => pure (.list [.dict (kv :: d), r])
  | .list xs => pure (.list (xs ++ [r]))
  | _ => throw .attributeError

/-- the loop over the groups with own outputs that have matches, ttp/ttp.py 2643-2658; the variables are changed in place -/
def ownResults (E : Engine) (vtr : Dict Str (List Str)) (tvars : Dict Str Val) (hit : RawHit → Hit) :
    List (RawDict × List (Slot Outputter)) → Val → Env → PyM (Val × Env)
  | [], main, env => pure (main, env)
  | (raw, outs) :: rest, main, env => do
    let ms ← makeResults E.toInt E.gf vtr env.vars env.gvars [(sortRaw raw).map (fun kv => kv.2.map hit)] (.dict [])
    let r ← runSlots E tvars outs ms.results
    let main' ← appendResult main r
    ownResults E vtr tvars hit rest main' ⟨ms.vars, ms.gvars⟩

/-- `_parser_class.parse`, ttp/ttp.py 2424-2658, with the outputs of each group: results and variables; `tvars` are the variables of the
template (conditions of outputs) -/
def parseOwn (E : Engine) (vtr : Dict Str (List Str)) (tvars : Dict Str Val) (groups : List (Grp × List (Slot Outputter))) (text : Str)
    (env : Env) (mainResults : Val) : PyM (Val × Env) := do
  let (env', raws) ← runGroups E.mf text (groups.map (·.1)) env
  let pairs := (raws.zip (groups.map (·.2))).filter (fun p => !p.1.isEmpty)
  let glob := pairs.filter (fun p => decide (p.2 = []))
  let own := pairs.filter (fun p => decide (p.2 ≠ []))
  let ms ← makeResults E.toInt E.gf vtr env'.vars env'.gvars (glob.map (fun p => (sortRaw p.1).map (fun kv => kv.2.map (toHit env')))) mainResults
  ownResults E vtr tvars (toHit env') own ms.results ⟨ms.vars, ms.gvars⟩

end TTP
