import Verif.Model.Own
import Verif.Spec.Object
/-!
# Specification: groups with their own outputs
-/

namespace Spec
open Py TTP

/-- match and group functions change no variables -/
def _root_.TTP.Engine.Quiet (E : Engine) : Prop :=
  (∀ f env v env' v' fl, E.mf f env v = .ok (env', v', fl) → env' = env) ∧
  (∀ f ms v ms' v' fl, E.gf f ms v = .ok (ms', v', fl) → ms'.vars = ms.vars ∧ ms'.gvars = ms.gvars)

/-- the group has matches in the text (or default values for its first line) -/
def Matches (E : Engine) (env : Env) (text : Str) (g : Grp) : Prop := ∃ raw, runRe E.mf text g 0 none env [] = .ok (env, raw) ∧ raw ≠ []

/-- What a group with outputs of its own gives for a text: nothing without matches, otherwise what its outputs, one after the other, make of the
results the text has for a template with this group only. -/
inductive OwnResult (E : Engine) (vtr : Dict Str (List Str)) (tvars : Dict Str Val) (text : Str) (env : Env) : Grp × List Outputter → List Val → Prop
  | none {g : Grp} {outs : List Outputter} : runRe E.mf text g 0 none env [] = .ok (env, []) → OwnResult E vtr tvars text env (g, outs) []
  | some {g : Grp} {outs outs' : List Outputter} {ms : MS} {v : Val} : Matches E env text g →
      parseText E.mf E.gf E.toInt vtr [g] text env (.dict []) = .ok ms → runOutputsAux E tvars outs ms.results = .ok (v, outs') →
      OwnResult E vtr tvars text env (g, outs) [v]

/-- main results and the results of groups with own outputs: the main results stay as they are if there are no others, otherwise they are the
first of a list unless they are empty -/
def gatherOwn (main : Dict Key Val) (own : List Val) : Val :=
  if own = [] then .dict main else .list ((if main = [] then [] else [.dict main]) ++ own)

end Spec
