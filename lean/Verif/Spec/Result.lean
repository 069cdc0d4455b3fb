import Verif.Model.Result
import Verif.Spec.Outputs
import Verif.Spec.Object
/-!
# Specification vocabulary for `result` with an output of its own
-/

namespace Spec
open Py TTP TTP.OutFn

/-- The output that keyword arguments stand for: like an output tag with these attributes, without text. -/
structure OutputWith (C : TplCtx) (W : OutWorld) (kw : Dict Str Val) (t : OutTag) : Prop where
  out : OutputOf C (overlay outDefaults kw) ⟨none, [], ((Dict.get? (overlay outDefaults kw) c!"format").map pyStr).getD [], [], none, false⟩ t.out
  absent : ∀ n, Dict.get? (overlay outDefaults kw) n = none → Dict.get? t.attrs n = none
  attrs : ∀ n v, Dict.get? (overlay outDefaults kw) n = some v → ∃ v', Dict.get? t.attrs n = some v' ∧ AttrFor C W.strftime n v v'
  load : t.tagLoad = .dict []

/-- what the output makes of one result: functions, formatter, returners; with the returner `self` the formatted data are the answer, otherwise
the result as it is stored -/
def OutputGives (E : Engine) (W : OutWorld) (t : OutTag) (data answer : Val) (effects : List Eff) : Prop :=
  ∃ r1 r2, Through (engineOf E W t) t.out.funcs data r1 ∧ Formatted (engineOf E W t) t.out.format r1 r2 ∧
    Effects W t r2 t.out.returners effects ∧ answer = if c!"self" ∈ t.out.returners then r2 else data

/-- the templates that are asked for: all without names -/
def Asked (o : TTPObj) (names : List Str) : List Tpl :=
  o.templates.filter (fun t => decide (names = []) || decide (t.name ∈ names))

end Spec
