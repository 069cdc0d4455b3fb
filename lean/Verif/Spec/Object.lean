import Verif.Model.Object
import Verif.Spec.Equal
/-!
# Specification vocabulary for the parser object
-/

namespace TTP
open Py

/-- One call of `add_input`, with the file system and functions at that time. -/
structure AddCall where
  E : Engine
  data : Val
  input : Str
  tpl : Str
  groups : List Str

/-- the calls one after the other -/
def addInputs (o : TTPObj) (calls : List AddCall) : TTPObj :=
  calls.foldl (fun o c => addInput c.E o c.data c.input c.tpl c.groups) o

/-- the call is for input `n` of the template named `name` -/
def AddCall.isFor (name n : Str) (c : AddCall) : Bool :=
  (decide (c.tpl = name) || decide (c.tpl = c!"_all_")) && decide (c.input = n)

/-- all data items given for input `n` of the template named `name`, in order -/
def given (name n : Str) (calls : List AddCall) : List Datum :=
  (calls.filter (AddCall.isFor name n)).flatMap (fun c => loadFiles c.E.world c.data)

/-- data of an input of a template, `none` if there is no such input -/
def Tpl.dataOf (t : Tpl) (n : Str) : Option (List Datum) := (Dict.get? t.inputs n).map (·.data)

/-- group indexes of an input of a template -/
def Tpl.groupsFor (t : Tpl) (n : Str) : Option (List Nat) := (Dict.get? t.inputs n).map (·.groups)

/-- `E` lists the elements of a set, each once, in some order -/
def Engine.SetOrderOk (E : Engine) : Prop := ∀ l, (E.setOrder l).Nodup ∧ ∀ x, x ∈ E.setOrder l ↔ x ∈ l

/-- The data items are parsed one after the other, each with an empty structure and with the variables of the template;
only the global variables are passed on. `es` are the entries. -/
inductive EachOf (E : Engine) (t : Tpl) : List (TInput × Datum) → Dict Str Val → Dict Str Val → List Val → Prop
  | nil (g : Dict Str Val) : EachOf E t [] g g []
  | cons {inp : TInput} {d : Datum} {rest : List (TInput × Datum)} {g0 g1 g2 : Dict Str Val} {r e : Val} {es : List Val} :
      parseDatum E t inp d (.dict []) g0 = .ok (r, g1) → formDatum r = .ok e → EachOf E t rest g1 g2 es →
      EachOf E t ((inp, d) :: rest) g0 g2 (e :: es)

/-- The data items are parsed one after the other, each continues the structure left by the one before (an empty structure
is replaced by an empty dictionary): from structure `v` to `w`. -/
inductive Chained (E : Engine) (t : Tpl) : List (TInput × Datum) → Val → Dict Str Val → Val → Dict Str Val → Prop
  | nil (v : Val) (g : Dict Str Val) : Chained E t [] v g v g
  | cons {inp : TInput} {d : Datum} {rest : List (TInput × Datum)} {g0 g1 g2 : Dict Str Val} {v r w : Val} :
      parseDatum E t inp d (if v.truthy then v else .dict []) g0 = .ok (r, g1) → Chained E t rest r g1 w g2 →
      Chained E t ((inp, d) :: rest) v g0 w g2

/-- match and group functions do not change global variables -/
def Engine.KeepsGlobals (E : Engine) : Prop :=
  (∀ f env v env' v' fl, E.mf f env v = .ok (env', v', fl) → env'.gvars = env.gvars) ∧
  (∀ f ms v ms' v' fl, E.gf f ms v = .ok (ms', v', fl) → ms'.gvars = ms.gvars)

/-- value of a variable set by the last of the calls that set it -/
def lastSet (calls : List (Dict Str Val)) (k : Str) : Option Val := calls.reverse.findSome? (fun d => Dict.get? d k)

/-- a list, or a single value, one level unpacked -/
def unpack : Val → List Val
  | .list xs => xs
  | v => [v]

/-- the functions of an output, in order -/
inductive Through (E : Engine) : List FnCall → Val → Val → Prop
  | nil (v : Val) : Through E [] v v
  | cons {f : FnCall} {fs : List FnCall} {u v w : Val} : E.outFns f u = .ok v → Through E fs v w → Through E (f :: fs) u w

/-- the formatter: an unknown one changes nothing -/
def Formatted (E : Engine) (fmt : Str) (v w : Val) : Prop :=
  (E.formatters fmt = none ∧ w = v) ∨ ∃ f, E.formatters fmt = some f ∧ f v = .ok w

/-- all returners other than `self` that exist succeed -/
def Returned (E : Engine) (rs : List Str) (v : Val) : Prop :=
  ∀ r ∈ rs, r ≠ c!"self" → ∀ f, E.returners r = some f → f v = .ok ()

/-- the template variable `n`; a variable that does not exist counts as the text `_undef_` -/
def condVar (vars : Dict Str Val) (n : Str) : Val := (Dict.get? vars n).getD (.str c!"_undef_")

/-- an output has no condition, or one with the name of a variable and a value -/
def CondOk (c : Option (List Val)) : Prop := c = none ∨ c = some [] ∨ ∃ n v, c = some [.str n, v] ∧ Spec.DeepWF v

/-- the condition of an output holds: there is none, or the template variable equals the value -/
def CondMet (vars : Dict Str Val) (c : Option (List Val)) : Prop :=
  c = none ∨ c = some [] ∨ ∃ n v, c = some [.str n, v] ∧ Spec.SameVal (condVar vars n) v

/-- what one output makes of the data: the data handed on, and the output afterwards (it remembers that it returned its result) -/
inductive OneOutput (E : Engine) (vars : Dict Str Val) : Outputter → Val → Val → Outputter → Prop
  | skip {o : Outputter} {data : Val} : ¬ CondMet vars o.condition → OneOutput E vars o data data o
  | run {o : Outputter} {data r1 r2 : Val} : CondMet vars o.condition → Through E o.funcs data r1 → Formatted E o.format r1 r2 →
      Returned E o.returners r2 →
      OneOutput E vars o data (if o.selfFlag || decide (c!"self" ∈ o.returners) then r2 else data)
        { o with selfFlag := o.selfFlag || decide (c!"self" ∈ o.returners) }

/-- the outputs of a template one after the other, each gets what the one before handed on -/
inductive OutputChain (E : Engine) (vars : Dict Str Val) : List Outputter → Val → Val → List Outputter → Prop
  | nil (v : Val) : OutputChain E vars [] v v []
  | cons {o o' : Outputter} {os os' : List Outputter} {u v w : Val} : OneOutput E vars o u v o' → OutputChain E vars os v w os' →
      OutputChain E vars (o :: os) u w (o' :: os')

end TTP
