import Verif.Spec.Placed
/-!
# Specification: a flat group with functions

The functions of a group are asked about every record, in order. Each one can change the record or reject it.
-/

namespace Spec
open Py TTP

/-- What the functions of a group make of a record: they are called one after the other, each with what the one before gave; the first
one that answers `False` rejects the record (`none`). The calls depend on nothing but the defaults of the group and the variables around, and
change nothing. What is left at the end is not empty. -/
inductive GJudged (gf : GroupFns) (dflt : Dict Key Val) (env : Env) : List FnCall → Dict Key Val → Option (Dict Key Val) → Prop
  | done {r : Dict Key Val} : r ≠ [] → (Dict.keys r).Nodup → GJudged gf dflt env [] r (some r)
  | go {f : FnCall} {fs : List FnCall} {r r' : Dict Key Val} {out : Option (Dict Key Val)} :
      (∀ ms : MS, ms.record.defaults = dflt → ms.vars = env.vars → ms.gvars = env.gvars →
        ∃ flag, gf f ms (.dict r) = .ok (ms, .dict r', flag) ∧ flag ≠ some false) →
      GJudged gf dflt env fs r' out → GJudged gf dflt env (f :: fs) r out
  | no {f : FnCall} {fs : List FnCall} {r : Dict Key Val} :
      (∀ ms : MS, ms.record.defaults = dflt → ms.vars = env.vars → ms.gvars = env.gvars → ∃ w, gf f ms (.dict r) = .ok (ms, w, some false)) →
      GJudged gf dflt env (f :: fs) r none

/-- An attribute of the group tag that is a function: `contains="mtu"` is the function `contains` with what Python makes of the value in
brackets. -/
def FnAttr (ctx : LoadCtx) (nv : Str × Str) (f : FnCall) : Prop :=
  lower nv.1 ∉ [c!"method", c!"input", c!"output", c!"name", c!"default", c!"chain", c!"functions"] ∧
    AttrText.OK ⟨nv.1, some nv.2⟩ ∧ AttrText.Means ctx ⟨nv.1, some nv.2⟩ f

/-- The functions of the attributes of a group tag, in order: an attribute that is a function, or the attribute `functions` (or `chain`) with a pipe
of functions, as in `functions="contains('mtu') | del('state')"`. In a pipe, names that are no functions of groups are left out. -/
inductive FnAttrs (ctx : LoadCtx) : List (Str × Str) → List FnCall → Prop
  | nil : FnAttrs ctx [] []
  | one {nv : Str × Str} {attrs : List (Str × Str)} {f : FnCall} {fs : List FnCall} : FnAttr ctx nv f → FnAttrs ctx attrs fs →
      FnAttrs ctx (nv :: attrs) (f :: fs)
  | pipe {name : Str} {items : List (Str × AttrText × Str)} {attrs : List (Str × Str)} {piped fs : List FnCall} :
      lower name ∈ [c!"functions", c!"chain"] → items ≠ [] →
      (∀ i ∈ items, (∀ c ∈ i.1, isSpace c = true) ∧ i.2.1.OK ∧ ∀ c ∈ i.2.2, isSpace c = true) →
      All2 (fun i f => i.2.1.Means ctx f) items piped → Dict.get? ctx.vars (pipeSource items) = none →
      (∀ f ∈ piped, f.name ∉ [c!"method", c!"input", c!"output", c!"name", c!"default", c!"chain", c!"functions"]) →
      FnAttrs ctx attrs fs → FnAttrs ctx ((name, pipeSource items) :: attrs) (piped.filter (fun f => ctx.isGroupFn f.name) ++ fs)

/-- the group element `<group name="..." contains="..." ...>` with these lines -/
def fnXml (name : Str) (attrs : List (Str × Str)) (tpl : List RLine) (tail : Option Str) : Xml :=
  .mk c!"group" ((c!"name", name) :: attrs) (some ('\n' :: (tpl.map (fun l => l.source ++ c!"\n")).flatten)) [] tail

/-- the records of a text, before the functions of the group are asked -/
def TextRecords (mf : MatchFns) (env : Env) (tpl : List RLine) (d : Str) (recs : List (Dict Key Val)) : Prop :=
  ∃ reads evs, All2 (RichReads mf env tpl) (splitC '\n' d) reads ∧ RichEvs tpl reads evs ∧
    All2 (IsRecordOf (richDefaults tpl)) (segments evs) recs ∧ ∀ r ∈ recs, r ≠ [] ∧ (Dict.keys r).Nodup

/-- the functions have an answer to every record of the text -/
def Answered (mf : MatchFns) (gf : GroupFns) (env : Env) (fs : List FnCall) (tpl : List RLine) (d : Str) : Prop :=
  ∀ recs, TextRecords mf env tpl d recs → ∀ r ∈ recs, ∃ out, GJudged gf (richDefaults tpl) env fs r out

/-- `v` is what a template with the one group `path`, that has these functions and these lines, makes of the text `d`: as `PlacedMeans`, with the
records that the functions let pass, as the functions leave them. -/
def FnMeans (mf : MatchFns) (gf : GroupFns) (env : Env) (path : List PathStep) (toInt : Bool) (fs : List FnCall) (tpl : List RLine) (d : Str)
    (v : Val) : Prop :=
  ∃ recs outs, TextRecords mf env tpl d recs ∧ All2 (GJudged gf (richDefaults tpl) env fs) recs outs ∧
    (outs.filterMap id = [] ∧ v = .dict [] ∨
      outs.filterMap id ≠ [] ∧ ∃ last x, path.getLast? = some last ∧ Gathers last.stars (outs.filterMap id) x ∧ v = placedAt toInt path x)

end Spec
