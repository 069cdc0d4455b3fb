import Verif.Spec.Parser
import Verif.Spec.Machine
/-!
# Specification vocabulary: where the strings of the results come from
-/

namespace TTP
open Py Spec

mutual
/-- all lines of a group and of the groups below it -/
def Grp.lines : Grp → List LineRx
  | .mk _ startL normalL endL _ children => startL ++ normalL ++ endL ++ linesAll children
/-- all lines of a list of groups -/
def linesAll : List Grp → List LineRx
  | [] => []
  | g :: gs => g.lines ++ linesAll gs
end

/-- all strings in the values of named variables have the property -/
def ValsOk (P : Str → Prop) (d : Dict Str Val) : Prop := ∀ kv ∈ d, AllStr P kv.2

/-- the functions of the variables of the lines of the groups -/
def UsedMatchFn (groups : List Grp) (f : FnCall) : Prop := ∃ l ∈ linesAll groups, ∃ v ∈ l.vars, f ∈ v.2.2

/-- the functions of the groups -/
def UsedGroupFn (groups : List Grp) (f : FnCall) : Prop := ∃ i ∈ infosAll groups, f ∈ i.funcs

/-- Strings that a line with `joinmatches` may put between two values: newline, or an argument of `joinmatches`. -/
def JoinString (l : LineRx) (j : Str) : Prop :=
  j = ['\n'] ∨ ∃ v ∈ l.vars, ∃ f ∈ v.2.2, f.name = c!"joinmatches" ∧ f.args.head? = some (.str j)

/-- The match functions in use make no new strings: whatever property all strings they see have, the strings they return
have too (checks like `contains` return the value itself). -/
def MatchFnsKeep (P : Str → Prop) (mf : MatchFns) (F : FnCall → Prop) : Prop :=
  ∀ f, F f → ∀ env v env' v' fl, ValsOk P env.vars → ValsOk P env.gvars → AllStr P v → mf f env v = .ok (env', v', fl) →
    ValsOk P env'.vars ∧ ValsOk P env'.gvars ∧ AllStr P v' ∧ ∀ d, fl = .newField d → AllStrD P d

/-- all strings in the state of the results machine have the property -/
structure MSOk (P : Str → Prop) (G : FnCall → Prop) (ms : MS) : Prop where
  results : AllStr P ms.results
  record : AllStrD P ms.record.result
  defaults : AllStrD P ms.record.defaults
  functions : ∀ f ∈ ms.record.functions, G f
  vars : ValsOk P ms.vars
  gvars : ValsOk P ms.gvars

/-- The group functions in use make no new strings. -/
def GroupFnsKeep (P : Str → Prop) (gf : GroupFns) (G : FnCall → Prop) : Prop :=
  ∀ f, G f → ∀ ms v ms' v' fl, MSOk P G ms → AllStr P v → gf f ms v = .ok (ms', v', fl) → MSOk P G ms' ∧ AllStr P v'

/-- A string made from the text: a contiguous piece of it, one of the given strings (defaults, template variables), or two
such strings joined by a join string of a line with `joinmatches`. -/
inductive FromText (text : Str) (given : Str → Prop) (groups : List Grp) : Str → Prop
  | piece (s : Str) : s <:+: text → FromText text given groups s
  | given (s : Str) : given s → FromText text given groups s
  | joined (a b j : Str) (l : LineRx) : l ∈ linesAll groups → l.action = .join → JoinString l j →
      FromText text given groups a → FromText text given groups b → FromText text given groups (a ++ (j ++ b))

end TTP
