import Verif.Spec.Tree
/-!
# Specification: how the matches of nested groups become a tree of records

Written without the results machine. Groups are named by the list of the names from the top group down; the parent of a group is the
list without the last name.
-/

namespace Spec
open Py

/-- What a match is: a valid start of a group with its values, an ordinary line of a group with its values, a match that failed a
check, an `_end_` line. -/
inductive NEv where
  | start (g : List Str) (d : Dict Key Val)
  | line (g : List Str) (d : Dict Key Val)
  | bad (g : List Str)
  | stop (g : List Str)

/-- the group of a match -/
def NEv.group : NEv → List Str
  | .start g _ => g
  | .line g _ => g
  | .bad g => g
  | .stop g => g

/-- the values of a match -/
def NEv.data : NEv → Dict Key Val
  | .start _ d => d
  | .line _ d => d
  | _ => []

/-- A record: its group, whether it is late (values for a record that is already finished), its values. -/
structure NRec where
  group : List Str
  late : Bool
  data : Dict Key Val

/-- What is known after some matches: the groups that are switched off, the open groups (innermost first), the records (newest
first, the newest one is being filled). -/
structure Desk where
  off : List (List Str)
  opens : List (List Str)
  recs : List NRec

/-- One more match. A failed check or an `_end_` switches the group off, until the next start of the group; the lines of a group that is
off and everything of its child groups is ignored. A start opens a new record; the groups that stay open are the parent and what
is around it. A line of the group of the newest record is added to it (values that are there stay). A line of another group that is open begins a
late record, and the groups inside of that group are not open any more. Lines of groups that are not open are ignored. There has to be a
record before an `_end_`, otherwise this is an error. -/
def Desk.step (D : Desk) : NEv → Option Desk
  | .bad g => some { D with off := g :: D.off }
  | .start g d =>
    if g.dropLast ∈ D.off then some D
    else some ⟨D.off.filter (· ≠ g),
      g :: (if g.dropLast ∈ D.opens then D.opens.dropWhile (· ≠ g.dropLast) else []), ⟨g, false, d⟩ :: D.recs⟩
  | .line g d =>
    if g.dropLast ∈ D.off ∨ g ∈ D.off then some D
    else match D.recs with
      | [] => some D
      | r :: rs =>
        if r.group = g then some { D with recs := { r with data := Dict.update d r.data } :: rs }
        else if g ∈ D.opens then some ⟨D.off, D.opens.dropWhile (· ≠ g), ⟨g, true, d⟩ :: r :: rs⟩
        else some D
  | .stop g =>
    if g.dropLast ∈ D.off ∨ g ∈ D.off then some D
    else if D.recs.isEmpty then none
    else some { D with off := g :: D.off }

/-- all matches; `none` is an error -/
def Desk.run (D : Desk) : List NEv → Option Desk
  | [] => some D
  | e :: es => (D.step e).bind (·.run es)

/-- the records under a key -/
def recsAt (d : Dict Key Val) (k : Key) : List Val :=
  match Dict.get? d k with
  | some (.list xs) => xs
  | _ => []

/-- the last record of a list -/
def lastRec (xs : List Val) : Dict Key Val :=
  match xs.getLast? with
  | some (.dict d) => d
  | _ => []

/-- Change the list of records at the end of the keys; on the way go into the last record (made if there is none). -/
def inLast : List Key → (List Val → List Val) → Dict Key Val → Dict Key Val
  | [], _, d => d
  | [k], f, d => Dict.set d k (.list (f (recsAt d k)))
  | k :: k' :: ks, f, d =>
    Dict.set d k (.list ((recsAt d k).dropLast ++ [.dict (inLast (k' :: ks) f (lastRec (recsAt d k)))]))

/-- A record becomes the last one of its list, unless it is empty. -/
def putRec (r : Dict Key Val) (xs : List Val) : List Val := if r.isEmpty then xs else xs ++ [.dict r]

/-- The values of a late record overwrite those of the last record. -/
def amendRec (r : Dict Key Val) (xs : List Val) : List Val := xs.dropLast ++ [.dict (Dict.update (lastRec xs) r)]

/-- defaults for what is missing -/
def fill (d dflt : Dict Key Val) : Dict Key Val := dflt.foldl (fun acc kv => Dict.setdefault acc kv.1 kv.2) d

/-- one record goes into the tree -/
def addRec (toInt : Bool) (dflt : List Str → Dict Key Val) (r : NRec) (d : Dict Key Val) : Dict Key Val :=
  inLast (r.group.map (pathKey toInt)) (if r.late then amendRec r.data else putRec (fill r.data (dflt r.group))) d

/-- The tree of the records (newest first): each goes in after the older ones. -/
def treeOf (toInt : Bool) (dflt : List Str → Dict Key Val) (recs : List NRec) : Dict Key Val :=
  recs.foldr (addRec toInt dflt) []

end Spec
