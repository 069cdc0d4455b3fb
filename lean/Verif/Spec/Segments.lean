import Verif.Py.Basic
/-!
# Specification: how the matches of a group without children are cut into records
-/

namespace Spec
open Py

/-- What a match line of a flat group is: a valid start with its values, a start that failed its checks, or an
ordinary line with its values. -/
inductive Ev where
  | start (d : Dict Key Val)
  | badStart
  | line (d : Dict Key Val)

/-- the ordinary lines up to the next start of any kind -/
def linesOf : List Ev → List (Dict Key Val)
  | .line d :: evs => d :: linesOf evs
  | _ => []

/-- one segment per valid start: the values of the start line and of the ordinary lines that follow it -/
def segments : List Ev → List (Dict Key Val × List (Dict Key Val))
  | [] => []
  | .start d :: evs => (d, linesOf evs) :: segments evs
  | .badStart :: evs => segments evs
  | .line _ :: evs => segments evs

/-- The record of a segment: for every key the value of the first of start line, ordinary lines, defaults that has
it. -/
def IsRecordOf (defaults : Dict Key Val) (seg : Dict Key Val × List (Dict Key Val)) (rec : Dict Key Val) : Prop :=
  ∀ k, Dict.get? rec k = (seg.1 :: seg.2 ++ [defaults]).findSome? (fun d => Dict.get? d k)

end Spec
