import Verif.Spec.Rich
import Verif.Spec.Machine
/-!
# Specification: where the records of a flat group go

The name of a group is a path: names parted by dots, each with asterisks after it or not. This says, for a text and a path, which value the
results are.
-/

namespace Spec
open Py TTP

/-- one item of a path: a name and the number of asterisks after it -/
structure PathStep where
  name : Str
  stars : Nat
  deriving DecidableEq, Repr

/-- how the item is written -/
def PathStep.text (p : PathStep) : Str := p.name ++ List.replicate p.stars '*'

/-- how the path is written: `interfaces*.vlan` -/
def pathText (path : List PathStep) : Str := join c!"." (path.map PathStep.text)

/-- The paths that are spoken about: at least one item, names as `GroupName`, two asterisks at most. -/
def PathOK (path : List PathStep) : Prop := path ≠ [] ∧ ∀ p ∈ path, GroupName p.name ∧ p.stars ≤ 2

/-- The value `x` at the end of the path: one dictionary inside of the other. An item with one asterisk before the last one makes a list
with one item. -/
def placedAt (toInt : Bool) : List PathStep → Val → Val
  | [], x => x
  | [p], x => .dict [(pathKey toInt p.name, x)]
  | p :: q :: ps, x =>
    .dict [(pathKey toInt p.name, if p.stars = 1 then .list [placedAt toInt (q :: ps) x] else placedAt toInt (q :: ps) x)]

/-- What the records (one at least) become at the end of the path. One asterisk: the list of the records. No asterisk: one record stands
for itself, several are a list. Two asterisks: one dictionary with the values of all records, where the first record that has a key counts. -/
inductive Gathers : Nat → List (Dict Key Val) → Val → Prop
  | list (recs : List (Dict Key Val)) : Gathers 1 recs (.list (recs.map .dict))
  | one (r : Dict Key Val) : Gathers 0 [r] (.dict r)
  | several (recs : List (Dict Key Val)) : 2 ≤ recs.length → Gathers 0 recs (.list (recs.map .dict))
  | merged (recs : List (Dict Key Val)) (e : Dict Key Val) : (Dict.keys e).Nodup →
      (∀ k, Dict.get? e k = recs.findSome? (fun r => Dict.get? r k)) → Gathers 2 recs (.dict e)

/-- `v` is what a template with the one group `path`, that has these lines, makes of the text `d`. -/
def PlacedMeans (mf : MatchFns) (env : Env) (path : List PathStep) (toInt : Bool) (tpl : List RLine) (d : Str) (v : Val) : Prop :=
  ∃ reads evs recs, All2 (RichReads mf env tpl) (splitC '\n' d) reads ∧ RichEvs tpl reads evs ∧
    All2 (IsRecordOf (richDefaults tpl)) (segments evs) recs ∧
    (recs = [] ∧ v = .dict [] ∨
      recs ≠ [] ∧ ∃ last x, path.getLast? = some last ∧ Gathers last.stars recs x ∧ v = placedAt toInt path x)

/-- Under the option `dynamic_path_key_to_int` the records of a path without asterisks at its end are kept together only if no name is made
of digits (C02). -/
def NumbersOK (toInt : Bool) (path : List PathStep) : Prop :=
  ∀ last, path.getLast? = some last → last.stars = 0 → toInt = true → ∀ p ∈ path, isdigitS p.name = false

end Spec
