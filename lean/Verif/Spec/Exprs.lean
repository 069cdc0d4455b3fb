import Verif.Spec.Template
import Verif.Model.Parser
/-!
# Specification: expressions and chains of a variable
-/

namespace Spec
open Py TTP

/-- the expression that is asked for: the first argument; without arguments the name of the function -/
def ExprAsked (f : FnCall) (s : Str) : Prop := (f.args = [] ∧ s = f.name) ∨ ∃ as, f.args = .str s :: as

/-- The expression that a text stands for: the value of the template variable of that name, if it is a text that is not empty; otherwise the
pattern of that name; otherwise the text itself. -/
def ExprFound (vars : Dict Str Val) (patterns : Str → Option Str) (s t : Str) : Prop :=
  (t ≠ [] ∧ Dict.get? vars s = some (.str t)) ∨
  ((Dict.get? vars s = none ∨ ∃ v : Val, Dict.get? vars s = some v ∧ v.truthy = false) ∧ (patterns s = some t ∨ (patterns s = none ∧ t = s)))

/-- Functions with pipes between them, white space around, as they are written in a text. -/
def PipeOf (ctx : LoadCtx) (s : Str) (fs : List FnCall) : Prop :=
  ∃ items, items ≠ [] ∧ s = pipeSource items ∧
    (∀ i ∈ items, (∀ c ∈ i.1 ++ i.2.2, isSpace c = true) ∧ i.2.1.OK) ∧ All2 (fun i f => i.2.1.Means ctx f) items fs

/-- The functions that a template variable holds: a text with a pipe, or a list of such texts. -/
def ChainOf (ctx : LoadCtx) (v : Val) (fs : List FnCall) : Prop :=
  (∃ s, v = .str s ∧ PipeOf ctx s fs) ∨
  ∃ ss gs, v = .list (ss.map .str) ∧ All2 (fun s g => PipeOf ctx s g) ss gs ∧ fs = gs.flatten

end Spec
