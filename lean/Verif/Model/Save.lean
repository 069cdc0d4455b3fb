import Verif.Py.Regex
/-!
# Saving a record into the results structure

Model of `_results_class.value_to_list`, `list_to_dict_fwd`, `dict_by_path`, `_merge_recursively`,
`save_curelements` and `reconstruct_last_element` (ttp/ttp.py).

In the code `dict_by_path` returns a reference into `self.results`, and the caller changes the referenced object in
place. The model has no references: `modAt` takes the change as a function and returns the changed structure.
-/

namespace TTP
open Py

/-- A processed path item: the name and the number of asterisks at its end.
Models the tuples made by `form_path`, ttp/ttp.py 3231-3234 (`"*" * n` is represented by `n`). -/
structure PItem where
  name : Str
  stars : Nat
  deriving DecidableEq, Repr

/-- The null path item, ttp/ttp.py 2892, 2968. -/
def nullName : Str := ['_']

/-- `int(name) if name.isdigit() else name` under option `dynamic_path_key_to_int`,
ttp/ttp.py 2938-2940 and 2964-2966. -/
def keyOf (toInt : Bool) (name : Str) : Key :=
  if toInt && isdigitS name then .i (natOfDigits name) else .s name

/-- `list_to_dict_fwd`, ttp/ttp.py 2918-2950: the new branch for a path.
The null path test at 2931 compares a tuple with `"_"`, so it never holds and is not in the model. -/
def freshDict (toInt : Bool) : List PItem → Dict Key Val
  | [] => []
  | p :: ps =>
    if p.stars = 1 then
      [(keyOf toInt p.name, .list (match ps with
        | [] => []
        | q :: qs => [.dict (freshDict toInt (q :: qs))]))]
    else [(keyOf toInt p.name, .dict (freshDict toInt ps))]

mutual
/-- `dict_by_path`, ttp/ttp.py 2985-2992 and the missing `else`: a list is entered through its last item, an empty
list gets the new branch `new` first; a value that is neither list nor dict ends the search with `None`. -/
def onLast {α : Type} (new : Dict Key Val) (h : Dict Key Val → PyM (Val × Option α)) :
    Val → PyM (Val × Option α)
  | .dict d => h d
  | .list xs => do let (ys, a) ← onLastL new h xs; pure (.list ys, a)
  | v => pure (v, none)
/-- last item of a list, ttp/ttp.py 2985-2992 -/
def onLastL {α : Type} (new : Dict Key Val) (h : Dict Key Val → PyM (Val × Option α)) :
    List Val → PyM (List Val × Option α)
  | [] => do let (v, a) ← h new; pure ([v], a)
  | [x] => do let (v, a) ← onLast new h x; pure ([v], a)
  | x :: y :: zs => do let (ys, a) ← onLastL new h (y :: zs); pure (x :: ys, a)
end

/-- `dict_by_path`, ttp/ttp.py 2974-2984: enter key `k` of a dictionary, add the new branch `new` if it is missing;
`KeyError` if the branch does not have the key (string key and converted branch). -/
def enterKey {α : Type} (k : Key) (new : Dict Key Val) (rec : Val → PyM (Val × Option α))
    (d : Dict Key Val) : PyM (Val × Option α) :=
  let d' := if Dict.has d k then d else Dict.update d new
  match Dict.get? d' k with
  | some v => do let (v', a) ← rec v; pure (.dict (Dict.set d' k v'), a)
  | none => throw .keyError

/-- `dict_by_path`, ttp/ttp.py 2952-2992, together with the change `f` that the caller applies to the element that is
returned. The second component is `none` if `dict_by_path` returns `None`. -/
def modAt {α : Type} (toInt : Bool) (f : Val → PyM (Val × α)) :
    List PItem → Val → PyM (Val × Option α)
  | [], v => do let (v', a) ← f v; pure (v', some a)
  | [p], v =>
    onLast (freshDict toInt [p])
      (fun d =>
        if p.name = nullName then do let (v', a) ← f (.dict d); pure (v', some a)
        else enterKey (keyOf toInt p.name) (freshDict toInt [p]) (modAt toInt f []) d) v
  | p :: q :: qs, v =>
    onLast (freshDict toInt (p :: q :: qs))
      (fun d =>
        if p.name = nullName then
          -- the null item is removed from the path, the next name is used as it is, without conversion
          enterKey (.s q.name) (freshDict toInt (q :: qs)) (modAt toInt f qs) d
        else enterKey (keyOf toInt p.name) (freshDict toInt (p :: q :: qs)) (modAt toInt f (q :: qs)) d) v

/-- argument of `dict.update`: a dictionary, or an empty sequence; anything else raises (the exception class is
simplified to `TypeError`) -/
def updateArg : Val → PyM (Dict Key Val)
  | .dict d => pure d
  | .list [] => pure []
  | .str [] => pure []
  | _ => throw .typeError

/-- `name in v` for the last item of a list, ttp/ttp.py 2907 (dict: key test, str: substring test, list: membership,
else `TypeError`) -/
def pyIn (name : Str) : Val → PyM Bool
  | .dict d => pure (Dict.has d (.s name))
  | .list xs => pure (xs.contains (.str name))
  | .str s => pure (contains s name)
  | _ => throw .typeError

/-- `value_to_list`, ttp/ttp.py 2902-2911: enter key `name`, in a dictionary or in the last item of a list; `rec` is
the recursive call for the rest of the path -/
def vtlName (name : Str) (rec : Val → PyM Val) : Val → PyM Val
  | .dict d =>
    match Dict.get? d (.s name) with
    | some v => do pure (.dict (Dict.set d (.s name) (← rec v)))
    | none => pure .none
  | .list xs =>
    match xs.getLast? with
    | none => throw .indexError
    | some (.dict d) =>
      match Dict.get? d (.s name) with
      | some v => do pure (.list (xs.dropLast ++ [.dict (Dict.set d (.s name) (← rec v))]))
      | none => pure .none
    | some x => do if ← pyIn name x then throw .typeError else pure .none
  | _ => pure .none

/-- `value_to_list`, ttp/ttp.py 2892-2898: the null item is the last one -/
def vtlNull (result : Val) : Val → PyM Val
  | .dict d => do pure (.dict (Dict.update d (← updateArg result)))
  | .list xs =>
    match xs.getLast? with
    | none => throw .indexError
    | some (.dict d) => do pure (.list (xs.dropLast ++ [.dict (Dict.update d (← updateArg result))]))
    | some _ => throw .attributeError
  | v => pure v

/-- `value_to_list`, ttp/ttp.py 2877-2916; `.none` is the Python `None` that is returned when the name is missing. -/
def valueToList (result : Val) : List PItem → Val → PyM Val
  | [], v => pure (.list [v, result])
  | [p], v =>
    if p.name = nullName then vtlNull result v else vtlName p.name (valueToList result []) v
  | p :: q :: qs, v =>
    if p.name = nullName then vtlName q.name (valueToList result qs) v
    else vtlName p.name (valueToList result (q :: qs)) v

/-- `PATH.pop(0)` of `dict_by_path`, ttp/ttp.py 2972: at the top level it changes the list that the caller goes on
using. -/
def popNull (path : List PItem) (root : Val) : List PItem :=
  match root, path with
  | .dict _, p :: q :: qs => if p.name = nullName then q :: qs else path
  | _, _ => path

mutual
/-- `_merge_recursively`, ttp/ttp.py 2994-3007. Merging a non-empty dictionary into a truthy value that is not a
dictionary raises `AttributeError`. -/
def mergeRec (element : Dict Key Val) : List (Key × Val) → PyM (Dict Key Val)
  | [] => pure element
  | (nk, nd) :: rest => do
    let v ← mergeVal (Dict.get? element nk) nd
    mergeRec (Dict.set element nk v) rest
/-- value saved under one key, ttp/ttp.py 3003-3007 -/
def mergeVal (old : Option Val) : Val → PyM Val
  | .dict nd =>
    match old with
    | some (.dict od) => if od.isEmpty then pure (.dict nd) else do pure (.dict (← mergeRec od nd))
    | some v =>
      if v.truthy then (if nd.isEmpty then pure v else throw .attributeError) else pure (.dict nd)
    | none => pure (.dict nd)
  | nd => pure nd
end

/-- `E[-1]` changed by `_merge_recursively(E[-1], result_data)`, ttp/ttp.py 3015 -/
def mergeLast (xs : List Val) (data : Val) : PyM Val := do
  match xs.getLast?, data with
  | none, _ => throw .indexError
  | some (.dict e), .dict r => do pure (.list (xs.dropLast ++ [.dict (← mergeRec e r)]))
  | some _, .dict [] => pure (.list xs)
  | some _, _ => throw .attributeError

/-- `save_curelements`, ttp/ttp.py 3013-3032: what happens to the element `E`. The flag tells that the element stays
and `value_to_list` has to run (3026-3030). -/
def saveElem (merge dstar : Bool) (data : Val) : Val → PyM (Val × Bool)
  | .list xs =>
    if data.truthy then
      if merge then do pure (← mergeLast xs data, false)
      else pure (.list (xs ++ [data]), false)
    else pure (.list xs, false)
  | .dict e =>
    if merge then
      match data with
      | .dict r => do pure (.dict (← mergeRec e r), false)
      | _ => throw .attributeError
    else if dstar then
      -- result_data.update(E); E.update(result_data)
      match data with
      | .dict r => pure (.dict (Dict.update e (Dict.update r e)), false)
      | _ => throw .attributeError
    else if e ≠ [] then pure (.dict e, true)
    else do pure (.dict (Dict.update e (← updateArg data)), false)
  | v => pure (v, false)

/-- `result_path[-1][1] == "**"`, ttp/ttp.py 3022; the path is not empty there (`processgrp` and `save_vars` do not
save records with an empty path). -/
def isDStar (path : List PItem) : Bool :=
  match path.getLast? with
  | some p => p.stars == 2
  | none => false

/-- `save_curelements`, ttp/ttp.py 3009-3032: the new `self.results`. -/
def save (toInt merge : Bool) (data : Val) (path : List PItem) (results : Val) : PyM Val := do
  let (r, flag) ← modAt toInt (saveElem merge (isDStar path) data) path results
  if flag = some true then valueToList data (popNull path results) r else pure r

/-- `reconstruct_last_element`, ttp/ttp.py 3034-3047: the results (`dict_by_path` may add a branch) and the copy of
the last element updated with the new data. -/
def reconstruct (toInt : Bool) (data : Val) (path : List PItem) (results : Val) : PyM (Val × Val) := do
  let (r, e) ← modAt toInt (fun v => pure (v, v)) path results
  match e with
  | some (.list xs) =>
    match xs.getLast? with
    | none => throw .indexError
    | some (.dict d) => do pure (r, .dict (Dict.update d (← updateArg data)))
    | some _ => throw .attributeError
  | some (.dict d) => do pure (r, .dict (Dict.update d (← updateArg data)))
  | _ => throw .unboundLocal

end TTP
