import Verif.Model.Outputs
import Verif.Model.New
/-!
# `result` with an output of its own, and `quick_parse`
-/

namespace TTP
open Py
namespace OutFn

/-- the attributes of the output of `result(..., **kwargs)`, ttp/ttp.py 629-631, 3281, 3292-3293 -/
def kwAttrs (kw : Dict Str Val) : Dict Str Val :=
  Dict.update [(c!"returner", Val.str c!"self"), (c!"format", .str c!"raw"), (c!"load", .str c!"python")]
    (Dict.setdefault kw c!"returner" (.str c!"self"))

/-- `_outputter_class(_ttp_=..., **kwargs)`, ttp/ttp.py 631, 3278-3294 -/
def kwTag (C : TplCtx) (W : OutWorld) (kw : Dict Str Val) : PyM OutTag := do
  let o ← outAttrs C (kwAttrs kw) ⟨none, [], ((Dict.get? (kwAttrs kw) c!"format").map pyStr).getD [], [], none, false⟩
  let attrs ← tagAttrs C W (kwAttrs kw) (kwAttrs kw)
  pure ⟨o, attrs, .dict []⟩

/-- `run` of an output that belongs to no template, ttp/ttp.py 3408-3443: a condition raises, as there are no variables to look at (3411) -/
def runAlone (E : Engine) (W : OutWorld) (t : OutTag) (data : Val) : PyM (Val × OutTag × List Eff) :=
  match t.out.condition with
  | some [_, _] => throw .attributeError
  | some (_ :: _) => throw .valueError
  | _ => runTag E W [] t data

/-- the output on the results of the templates in order; it is one object, and takes the macros of the template, ttp/ttp.py 634-638, 642-646, 654-660 -/
def runEach (E : Engine) (W : OutWorld) (M : Tpl → Dict Str (Val → PyM Val)) : OutTag → List Tpl → PyM (List Val × List Eff)
  | _, [] => pure ([], [])
  | t, p :: ps => do
    let (w, t', es) ← runAlone E { W with macros := M p } t p.results
    let (ws, fs) ← runEach E W M t' ps
    pure (w :: ws, es ++ fs)

/-- what is reported for the templates, ttp/ttp.py 629-631, 633-639: their results, or what the output makes of them -/
def reported (E : Engine) (W : OutWorld) (M : Tpl → Dict Str (Val → PyM Val)) : Option OutTag → List Tpl → PyM (List Val × List Eff)
  | none, ps => pure (ps.map (·.results), [])
  | some t, ps => runEach E W M t ps

/-- the output of `result`, ttp/ttp.py 629-631: there is one if there are keyword arguments -/
def resultTag (C : TplCtx) (W : OutWorld) (kw : Dict Str Val) : PyM (Option OutTag) :=
  match kw with
  | [] => pure none
  | _ => do pure (some (← kwTag C W kw))

/-- items of one result for `flat_list`, ttp/ttp.py 661-668 -/
def flatItems : Val → List Val
  | .list xs => xs.foldl (fun ret item => match item with
      | .list ys => ret ++ ys
      | v => ret ++ [v]) []
  | v => [v]

/-- `result(templates, structure, **kwargs)`, ttp/ttp.py 619-669: what it returns, and what the returners do outside; an unknown structure
gives `None`; `M` is for each template its macros -/
def resultCall (C : TplCtx) (W : OutWorld) (M : Tpl → Dict Str (Val → PyM Val)) (o : TTPObj) (names : List Str) (shape : Str) (kw : Dict Str Val) : PyM (Val × List Eff) := do
  let t ← resultTag C W kw
  if lower shape = c!"list" then do
    let (vs, es) ← reported C.eng W M t (pick o names)
    pure (.list vs, es)
  else if lower shape = c!"dictionary" then do
    let ts := (pick o names).filter (fun t => decide (t.name ≠ []))
    let (vs, es) ← reported C.eng W M t ts
    pure (.dict ((ts.zip vs).foldl (fun d q => Dict.set d (.s q.1.name) q.2) []), es)
  else if lower shape = c!"flat_list" then do
    let (vs, es) ← reported C.eng W M t (pick o names)
    pure (.list (vs.foldl (fun ret v => ret ++ flatItems v) []), es)
  else pure (.none, [])

/-- `quick_parse(data, template, ttp_kwargs, result_kwargs=...)`, ttp/utils/quick_parse.py 4-52, with `base_path` and `vars` as keyword
arguments of the object, parsing in one process and results for all templates as list; data that are empty are not given to the object -/
def quickParse (C : TplCtx) (X : ExtCtx) (W : OutWorld) (M : Tpl → Dict Str (Val → PyM Val)) (data template : Val) (base : Str) (vars : Dict Str Val) (kw : Dict Str Val) :
    PyM (Val × List Eff) := do
  let o ← newTTP C X (if data.truthy then data else .str []) template base vars
  let o' ← parseOne C.eng o
  resultCall C W M o' [] c!"list" kw

end OutFn
end TTP
