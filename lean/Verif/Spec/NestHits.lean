import Verif.Spec.Nest
import Verif.Model.Machine
/-!
# Specification vocabulary: matches of nested groups
-/

namespace TTP
open Py Spec

/-- A dictionary of values: no keys twice, no dictionaries in it, no names of groups. -/
def Plain (toInt : Bool) (groups : List (List Str)) (d : Dict Key Val) : Prop :=
  Dict.WF d ∧ ∀ kv ∈ d, NotDict kv.2 ∧ ∀ g ∈ groups, ∀ n ∈ g, kv.1 ≠ pathKey toInt n

/-- Groups, each named by the names from the top group down: with their parents, different identities, ordinary names (no null item, no
placeholders, no asterisks), plain defaults. -/
structure GroupsOK (toInt : Bool) (groups : List (List Str)) (id : List Str → GId) (dflt : List Str → Dict Key Val) : Prop where
  ne : [] ∉ groups
  parents : ∀ g ∈ groups, g.dropLast ≠ [] → g.dropLast ∈ groups
  ids : ∀ g ∈ groups, ∀ g' ∈ groups, id g = id g' → g = g'
  names : ∀ g ∈ groups, ∀ n ∈ g, n ≠ c!"_" ∧ '{' ∉ n ∧ '*' ∉ n
  dflts : ∀ g ∈ groups, Plain toInt groups (dflt g)

/-- The template line belongs to the group: identity and parent, the path is the names with an asterisk each, defaults, no functions, not
a `_line_`. -/
structure LineOf (id : List Str → GId) (dflt : List Str → Dict Key Val) (g : List Str) (re : RE) : Prop where
  gid : re.gid = id g
  parent : re.parent = if g.dropLast = [] then none else some (id g.dropLast)
  path : re.path = g.map (· ++ c!"*")
  runs : re.runs = dflt g
  funcs : re.funcs = []
  line : re.isLine = false

/-- the match is this event -/
def TellsOf (h : Hit) : NEv → Prop
  | .start _ d => (h.1.action = .start ∧ h.2 = some d) ∨ (h.1.action = .startempty ∧ d = [] ∧ h.2 ≠ none)
  | .line _ d => h.1.action = .add ∧ h.2 = some d
  | .bad _ => h.2 = none
  | .stop _ => h.1.action = .end_ ∧ h.2 ≠ none

/-- The match is this event of one of the groups, with plain values. -/
structure Tells (toInt : Bool) (groups : List (List Str)) (id : List Str → GId) (dflt : List Str → Dict Key Val) (h : Hit) (e : NEv) : Prop where
  group : e.group ∈ groups
  lineOf : LineOf id dflt e.group h.1
  tells : TellsOf h e
  data : Plain toInt groups e.data

end TTP
