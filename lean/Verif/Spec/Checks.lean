import Verif.Spec.Group
import Verif.Spec.RichFns
/-!
# Specification: the checks of a group

Six group functions look at a record and let it pass or not: `contains`, `containsall`, `exclude`, `excludeall`, `equal`, `exclude_val`.
-/

namespace Spec
open Py TTP

/-- a check, as it is written in a group tag: `contains="a, b"`, `equal="a, up"` -/
inductive GCheck where
  | contains (names : List Str)
  | containsall (names : List Str)
  | exclude (names : List Str)
  | excludeall (names : List Str)
  | equal (name value : Str)
  | excludeVal (name value : Str)

/-- the call of the function -/
def GCheck.call : GCheck → FnCall
  | .contains ns => ⟨c!"contains", ns.map .str, []⟩
  | .containsall ns => ⟨c!"containsall", ns.map .str, []⟩
  | .exclude ns => ⟨c!"exclude", ns.map .str, []⟩
  | .excludeall ns => ⟨c!"excludeall", ns.map .str, []⟩
  | .equal n v => ⟨c!"equal", [.str n, .str v], []⟩
  | .excludeVal n v => ⟨c!"exclude_val", [.str n, .str v], []⟩

/-- the value that `equal` compares with: the template variable of that name, otherwise the text itself -/
def compared (env : Env) (value : Str) : Val := (Dict.get? env.vars value).getD (.str value)

/-- the variable has a value in the record, and not its default -/
def HasOwn (dflt r : Dict Key Val) (n : Str) : Prop := ∃ x, valueOf r n = some x ∧ valueOf dflt n ≠ some x

/-- what each check asks of a record. `contains` asks the first of its names that is in the record; `exclude` and `excludeall` look at names
without a default only. -/
def GCheck.Holds (dflt : Dict Key Val) (env : Env) (r : Dict Key Val) : GCheck → Prop
  | .contains ns => ∃ pre n post, ns = pre ++ n :: post ∧ (∀ m ∈ pre, valueOf r m = none) ∧ HasOwn dflt r n
  | .containsall ns => ∀ n ∈ ns, HasOwn dflt r n
  | .exclude ns => ∀ n ∈ ns, valueOf dflt n = none → valueOf r n = none
  | .excludeall ns => ∃ n ∈ ns, valueOf dflt n = none → valueOf r n = none
  | .equal n v => valueOf r n = some (compared env v)
  | .excludeVal n v => valueOf r n ≠ some (compared env v)

/-- defaults of the names are texts, and so is what is compared with -/
def GCheck.OK (dflt : Dict Key Val) (env : Env) : GCheck → Prop
  | .contains ns | .containsall ns => ∀ n ∈ ns, ∀ y, valueOf dflt n = some y → ∃ t, y = .str t
  | .exclude _ | .excludeall _ => True
  | .equal _ v | .excludeVal _ v => ∃ t, compared env v = .str t

/-- the items with the property, in their order -/
inductive Those {α : Type} (P : α → Prop) : List α → List α → Prop
  | nil : Those P [] []
  | keep {a : α} {as bs : List α} : P a → Those P as bs → Those P (a :: as) (a :: bs)
  | drop {a : α} {as bs : List α} : ¬ P a → Those P as bs → Those P (a :: as) bs

/-- `v` is what a template with the one group `path`, that has these checks and these lines, makes of the text `d`: the records for which all
checks hold, unchanged and in order, at the place the path means. -/
def ChecksMean (mf : MatchFns) (env : Env) (path : List PathStep) (toInt : Bool) (cs : List GCheck) (tpl : List RLine) (d : Str) (v : Val) : Prop :=
  ∃ recs kept, TextRecords mf env tpl d recs ∧ Those (fun r => ∀ c ∈ cs, c.Holds (richDefaults tpl) env r) recs kept ∧
    (kept = [] ∧ v = .dict [] ∨ kept ≠ [] ∧ ∃ last x, path.getLast? = some last ∧ Gathers last.stars kept x ∧ v = placedAt toInt path x)

end Spec
