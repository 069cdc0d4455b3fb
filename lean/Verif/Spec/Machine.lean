import Verif.Model.Machine
import Verif.Spec.Segments
import Verif.Spec.Tree
/-!
# Specification vocabulary for matches and records

These definitions only read the data that goes into the machine (matches, paths); none of them uses the machine.
-/

namespace TTP
open Py Spec

/-- Saving several records, one after the other, at the same path. -/
def saveMany (toInt : Bool) (path : List PItem) (rs : List (Dict Key Val)) (R : Val) : PyM Val :=
  rs.foldlM (fun R r => save toInt false (.dict r) path R) R

/-- path with placeholders nowhere -/
def StaticPath (path : List Str) : Prop := ∀ item ∈ path, '{' ∉ item

/-- number of asterisks at the end of a path item -/
def trailingStars (item : Str) : Nat := (item.reverse.takeWhile (· == '*')).length

/-- the items of a static path: the name without the asterisks at its end, and their number -/
def parsePath (path : List Str) : List PItem := path.map (fun i => ⟨i.take (i.length - trailingStars i), trailingStars i⟩)

/-- the keys of a path -/
def pathKeys (toInt : Bool) (path : List PItem) : List Key := path.map (fun p => Spec.pathKey toInt p.name)

/-- with the option `dynamic_path_key_to_int` on, no name of the path is all digits -/
abbrev NoNumbers (toInt : Bool) (path : List PItem) : Prop := toInt = true → ∀ p ∈ path, isdigitS p.name = false

/-- The match belongs to the top group `g` that has the given path, defaults and no functions; it is a match of a start
line or a match with values of an ordinary line. -/
structure OfGroup (g : GId) (path : List Str) (dflt : Dict Key Val) (h : Hit) : Prop where
  gid : h.1.gid = g
  parent : h.1.parent = none
  path : h.1.path = path
  runs : h.1.runs = dflt
  funcs : h.1.funcs = []
  action : h.1.action.isStart = true ∨ (h.1.action = .add ∧ h.2 ≠ none)
  wf : ∀ d, h.2 = some d → Dict.WF d

/-- what the match is: data `none` is a failed check; a `_start_` line contributes no values of its own -/
def evOf (h : Hit) : Ev :=
  match h.2 with
  | none => .badStart
  | some d =>
    match h.1.action with
    | .start => .start d
    | .startempty => .start []
    | _ => .line d

/-- a match, with values, of a line of group `g` that does not start it -/
def Quiet (g : GId) (h : Hit) : Bool := h.1.gid == g && !h.1.action.isStart && h.2.isSome

/-- a valid start match of group `g` -/
def ValidStart (g : GId) (h : Hit) : Bool := h.1.gid == g && h.1.action.isStart && h.2.isSome

/-- group functions do not touch the set of ended groups (no built-in function does) -/
def KeepsEnded (gf : GroupFns) : Prop := ∀ f ms v ms' v' fl, gf f ms v = .ok (ms', v', fl) → ms'.ended = ms.ended

/-- group functions do not write into the results themselves (true for all built-in functions except `itemize` with a
`path`) -/
def KeepsResults (gf : GroupFns) : Prop := ∀ f ms v ms' v' fl, gf f ms v = .ok (ms', v', fl) → ms'.results = ms.results

/-- order of preference of a match: `_start_` line, start line, ordinary or `_end_` line, `_line_` -/
def rank (h : Hit) : Nat :=
  if h.1.isLine then 3 else
  match h.1.action with
  | .startempty => 0
  | .start => 1
  | _ => 2

/-- the match belongs to the group of the current record (and passed its checks, for start lines) -/
def Near (ms : MS) (h : Hit) : Prop := ms.record.grpId = some h.1.gid ∧ (rank h < 2 → h.2 ≠ none)

/-- a start line that passed its checks, of a group whose path starts with the path of the group of the current record or whose parent
group was started; an ordinary or `_end_` line of a group that was started -/
def Kin (ms : MS) (h : Hit) : Prop :=
  (rank h < 2 ∧ h.2 ≠ none ∧ ((∃ g, ms.record.grpId = some g ∧ g.1 <+: h.1.gid.1) ∨ ∃ p, h.1.parent = some p ∧ p ∈ ms.started)) ∨
  (rank h = 2 ∧ h.1.gid ∈ ms.started)

end TTP

namespace TTP
open Py Spec

/-- the path of a named `<vars>` tag: the dot-separated name with blanks around the items removed -/
def tagPath (name : Str) : List PItem := parsePath ((splitC '.' name).map strip)

/-- the join character of a list of variable functions: the first argument of the first `joinmatches`, newline without
arguments or without `joinmatches` -/
def JoinsBy (fns : List FnCall) (j : Str) : Prop :=
  ((∀ f ∈ fns, f.name ≠ c!"joinmatches") ∧ j = ['\n']) ∨
  ∃ pre f post, fns = pre ++ f :: post ∧ (∀ x ∈ pre, x.name ≠ c!"joinmatches") ∧ f.name = c!"joinmatches" ∧
    ((f.args = [] ∧ j = ['\n']) ∨ f.args.head? = some (.str j))

/-- As `OfGroup`, with matches of end lines. -/
structure OfGroupE (g : GId) (path : List Str) (dflt : Dict Key Val) (h : Hit) : Prop where
  gid : h.1.gid = g
  parent : h.1.parent = none
  path : h.1.path = path
  runs : h.1.runs = dflt
  funcs : h.1.funcs = []
  action : h.1.action.isStart = true ∨ ((h.1.action = .add ∨ h.1.action = .end_) ∧ h.2 ≠ none)
  wf : ∀ d, h.2 = some d → Dict.WF d

/-- as `evOf`; an end line, as a rejected start line, makes the lines that follow it be ignored -/
def evOfE (h : Hit) : Ev :=
  match h.2 with
  | none => .badStart
  | some d =>
    match h.1.action with
    | .start => .start d
    | .startempty => .start []
    | .end_ => .badStart
    | _ => .line d

end TTP
